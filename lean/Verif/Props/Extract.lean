import Verif.Model.Extract
import Mathlib.Tactic.ByContra

/-!
C117: blocks that could be calls of a new function.
-/

namespace Verif.Extract

/-! ### Counting -/

theorem toks_append : ∀ as bs : List T, toks (as ++ bs) = toks as + toks bs
  | [], bs => by simp [toks]
  | a :: as, bs => by simp only [List.cons_append, toks, toks_append as bs]; omega

theorem counts_append (defs main : Bool) : ∀ as bs : List T, counts defs main (as ++ bs) = counts defs main as + counts defs main bs
  | [], bs => by simp [counts]
  | a :: as, bs => by simp only [List.cons_append, counts, counts_append defs main as bs]; omega

theorem toks_sum : ∀ ts : List T, toks ts = (ts.map tok).sum
  | [] => rfl
  | t :: ts => by simp only [toks, List.map_cons, List.sum_cons, toks_sum ts]

theorem counts_sum (defs main : Bool) : ∀ ts : List T, counts defs main ts = (ts.map (count defs main)).sum
  | [] => rfl
  | t :: ts => by simp only [counts, List.map_cons, List.sum_cons, counts_sum defs main ts]

theorem toks_replicate (n : Nat) (t : T) : toks (List.replicate n t) = n * tok t := by
  rw [toks_sum, List.map_replicate, List.sum_replicate_nat]

theorem counts_replicate (defs main : Bool) (n : Nat) (t : T) : counts defs main (List.replicate n t) = n * count defs main t := by
  rw [counts_sum, List.map_replicate, List.sum_replicate_nat]

theorem tok_leaf : tok leaf = 1 := rfl

theorem toks_leaves {α : Type} : ∀ l : List α, toks (l.map fun _ => leaf) = l.length
  | [] => rfl
  | a :: l => by
    simp only [List.map_cons, toks, toks_leaves l, List.length_cons, tok_leaf]
    omega

mutual
/-- How many nodes the tree has. -/
def size : T → Nat
  | .hole _ => 1
  | .node kids => 1 + sizes kids
  | .value e => 1 + size e
  | .ifExp a b c => 1 + size a + size b + size c
  | .branch _ _ a b c => 1 + sizes a + sizes b + sizes c
  | .def_ a b => 1 + sizes a + sizes b
  | .import_ => 1
  | .try_ a b c d => 1 + sizes a + sizes b + sizes c + sizes d
  | .handler a b => 1 + sizes a + sizes b
  | .with_ a b => 1 + sizes a + sizes b

def sizes : List T → Nat
  | [] => 0
  | t :: ts => size t + sizes ts
end

mutual
/-- How often there is `else`, in statements and expressions; an `if` that is alone in the `else` of another is `elif`. -/
def elses : T → Nat
  | .hole _ => 0
  | .node kids => elsesAll kids
  | .value e => elses e
  | .ifExp a b c => 1 + elses a + elses b + elses c
  | .branch true _ a b [.branch true m x y z] => elsesAll a + elsesAll b + elses (.branch true m x y z)
  | .branch _ _ a b [] => elsesAll a + elsesAll b
  | .branch _ _ a b (c :: d) => 1 + elsesAll a + elsesAll b + (elses c + elsesAll d)
  | .def_ a b => elsesAll a + elsesAll b
  | .import_ => 0
  | .try_ a b c d => elsesAll a + elsesAll b + elsesAll c + elsesAll d
  | .handler a b => elsesAll a + elsesAll b
  | .with_ a b => elsesAll a + elsesAll b

def elsesAll : List T → Nat
  | [] => 0
  | t :: ts => elses t + elsesAll ts
end

mutual
/-- How many expressions are statements. -/
def bare : T → Nat
  | .hole _ => 0
  | .node kids => bares kids
  | .value e => 1 + bare e
  | .ifExp a b c => bare a + bare b + bare c
  | .branch _ _ a b c => bares a + bares b + bares c
  | .def_ a b => bares a + bares b
  | .import_ => 0
  | .try_ a b c d => bares a + bares b + bares c + bares d
  | .handler a b => bares a + bares b
  | .with_ a b => bares a + bares b

def bares : List T → Nat
  | [] => 0
  | t :: ts => bare t + bares ts
end

theorem elses_branch (i m : Bool) (a b c : List T) :
    elses (.branch i m a b c) = elsesAll a + elsesAll b + elsesAll c + (if hasElse i c then 1 else 0) := by
  cases c with
  | nil => cases i <;> simp [elses, elsesAll, hasElse]
  | cons d e =>
    cases i with
    | false => simp [elses, elsesAll, hasElse]; omega
    | true =>
      cases e with
      | cons x y => cases d <;> simp [elses, elsesAll, hasElse, hasElif] <;> omega
      | nil =>
        cases d with
        | branch j n x y z => cases j <;> simp [elses, elsesAll, hasElse, hasElif] <;> omega
        | _ => simp [elses, elsesAll, hasElse, hasElif] <;> omega

mutual
/-- **C117**: tokens are the nodes of the tree and each `else`, where an expression that is a statement is not a node of its own. -/
theorem C117_tokens : ∀ t : T, tok t + bare t = size t + elses t
  | .hole _ => rfl
  | .node kids => by have := C117_tokens_all kids; simp only [tok, bare, size, elses]; omega
  | .value e => by have := C117_tokens e; simp only [tok, bare, size, elses]; omega
  | .ifExp a b c => by
    have := C117_tokens a; have := C117_tokens b; have := C117_tokens c
    simp only [tok, bare, size, elses]; omega
  | .branch i m a b c => by
    have := C117_tokens_all a; have := C117_tokens_all b; have := C117_tokens_all c
    rw [elses_branch]
    simp only [tok, bare, size]; omega
  | .def_ a b => by have := C117_tokens_all a; have := C117_tokens_all b; simp only [tok, bare, size, elses]; omega
  | .import_ => rfl
  | .try_ a b c d => by
    have := C117_tokens_all a; have := C117_tokens_all b; have := C117_tokens_all c; have := C117_tokens_all d
    simp only [tok, bare, size, elses]; omega
  | .handler a b => by have := C117_tokens_all a; have := C117_tokens_all b; simp only [tok, bare, size, elses]; omega
  | .with_ a b => by have := C117_tokens_all a; have := C117_tokens_all b; simp only [tok, bare, size, elses]; omega

theorem C117_tokens_all : ∀ ts : List T, toks ts + bares ts = sizes ts + elsesAll ts
  | [] => rfl
  | t :: ts => by
    have := C117_tokens t; have := C117_tokens_all ts
    simp only [toks, bares, sizes, elsesAll]; omega
end

/-! ### Filling in places -/

mutual
/-- The tree with other trees in the places where blocks differ. -/
def fill (σ : Nat → T) : T → T
  | .hole v => σ v
  | .node kids => .node (fills σ kids)
  | .value e => .value (fill σ e)
  | .ifExp a b c => .ifExp (fill σ a) (fill σ b) (fill σ c)
  | .branch i m head body orelse => .branch i m (fills σ head) (fills σ body) (fills σ orelse)
  | .def_ head body => .def_ (fills σ head) (fills σ body)
  | .import_ => .import_
  | .try_ body handlers orelse final => .try_ (fills σ body) (fills σ handlers) (fills σ orelse) (fills σ final)
  | .handler head body => .handler (fills σ head) (fills σ body)
  | .with_ head body => .with_ (fills σ head) (fills σ body)

def fills (σ : Nat → T) : List T → List T
  | [] => []
  | t :: ts => fill σ t :: fills σ ts
end

mutual
/-- The places where blocks differ, as often as they are there. -/
def holes : T → List Nat
  | .hole v => [v]
  | .node kids => holesAll kids
  | .value e => holes e
  | .ifExp a b c => holes a ++ holes b ++ holes c
  | .branch _ _ head body orelse => holesAll head ++ holesAll body ++ holesAll orelse
  | .def_ head body => holesAll head ++ holesAll body
  | .import_ => []
  | .try_ body handlers orelse final => holesAll body ++ holesAll handlers ++ holesAll orelse ++ holesAll final
  | .handler head body => holesAll head ++ holesAll body
  | .with_ head body => holesAll head ++ holesAll body

def holesAll : List T → List Nat
  | [] => []
  | t :: ts => holes t ++ holesAll ts
end

/-- Expressions, and statements without others in them. -/
def T.plain : T → Prop
  | .hole _ | .node _ | .ifExp .. => True
  | _ => False

theorem hasElif_fills {σ : Nat → T} (hσ : ∀ v, (σ v).plain) : ∀ l : List T, hasElif (fills σ l) = hasElif l
  | [] => rfl
  | [t] => by
    cases t with
    | hole v =>
      have := hσ v
      simp only [fills, fill]
      cases h : σ v <;> simp_all [hasElif, T.plain]
    | branch i m a b c => cases i <;> simp [fills, fill, hasElif]
    | _ => simp [fills, fill, hasElif]
  | _ :: _ :: _ => by simp [fills, hasElif]

theorem isEmpty_fills (σ : Nat → T) : ∀ l : List T, (fills σ l).isEmpty = l.isEmpty
  | [] => rfl
  | _ :: _ => rfl

theorem hasElse_fills {σ : Nat → T} (hσ : ∀ v, (σ v).plain) (i : Bool) (l : List T) : hasElse i (fills σ l) = hasElse i l := by
  simp only [hasElse, isEmpty_fills, hasElif_fills hσ]

mutual
theorem tok_fill {σ : Nat → T} (hσ : ∀ v, (σ v).plain) :
    ∀ t : T, tok (fill σ t) + (holes t).length = tok t + ((holes t).map fun v => tok (σ v)).sum
  | .hole v => by simp [fill, holes, tok]; omega
  | .node kids => by have := toks_fills hσ kids; simp only [fill, holes, tok]; omega
  | .value e => by have := tok_fill hσ e; simp only [fill, holes, tok]; omega
  | .ifExp a b c => by
    have := tok_fill hσ a; have := tok_fill hσ b; have := tok_fill hσ c
    simp only [fill, holes, tok, List.length_append, List.map_append, List.sum_append_nat]; omega
  | .branch i m a b c => by
    have := toks_fills hσ a; have := toks_fills hσ b; have := toks_fills hσ c
    simp only [fill, holes, tok, List.length_append, List.map_append, List.sum_append_nat, hasElse_fills hσ]; omega
  | .def_ a b => by
    have := toks_fills hσ a; have := toks_fills hσ b
    simp only [fill, holes, tok, List.length_append, List.map_append, List.sum_append_nat]; omega
  | .import_ => by simp [fill, holes, tok]
  | .try_ a b c d => by
    have := toks_fills hσ a; have := toks_fills hσ b; have := toks_fills hσ c; have := toks_fills hσ d
    simp only [fill, holes, tok, List.length_append, List.map_append, List.sum_append_nat]; omega
  | .handler a b => by
    have := toks_fills hσ a; have := toks_fills hσ b
    simp only [fill, holes, tok, List.length_append, List.map_append, List.sum_append_nat]; omega
  | .with_ a b => by
    have := toks_fills hσ a; have := toks_fills hσ b
    simp only [fill, holes, tok, List.length_append, List.map_append, List.sum_append_nat]; omega

/-- Tokens of a block: those in common, without the places where blocks differ, and those in these places. -/
theorem toks_fills {σ : Nat → T} (hσ : ∀ v, (σ v).plain) :
    ∀ ts : List T, toks (fills σ ts) + (holesAll ts).length = toks ts + ((holesAll ts).map fun v => tok (σ v)).sum
  | [] => rfl
  | t :: ts => by
    have := tok_fill hσ t; have := toks_fills hσ ts
    simp only [fills, holesAll, toks, List.length_append, List.map_append, List.sum_append_nat]; omega
end

mutual
theorem count_fill {σ : Nat → T} (hσ : ∀ v, (σ v).plain) (defs main : Bool) : ∀ t : T, count defs main (fill σ t) = count defs main t
  | .hole v => by
    have := hσ v
    simp only [fill]
    cases h : σ v <;> simp_all [count, T.plain]
  | .node kids => by simp [fill, count]
  | .value e => by simp [fill, count]
  | .ifExp a b c => by simp [fill, count]
  | .branch i m a b c => by simp only [fill, count, counts_fills hσ defs main b, counts_fills hσ defs main c, hasElse_fills hσ]
  | .def_ a b => by simp only [fill, count, counts_fills hσ defs main b]
  | .import_ => by simp [fill, count]
  | .try_ a b c d => by
    simp only [fill, count, counts_fills hσ defs main a, handled_fills hσ defs main b, counts_fills hσ defs main c, counts_fills hσ defs main d]
  | .handler a b => by simp [fill, count]
  | .with_ a b => by simp only [fill, count, counts_fills hσ defs main b]

/-- Blocks have as many statements as what they have in common. -/
theorem counts_fills {σ : Nat → T} (hσ : ∀ v, (σ v).plain) (defs main : Bool) : ∀ ts : List T, counts defs main (fills σ ts) = counts defs main ts
  | [] => rfl
  | t :: ts => by simp only [fills, counts, count_fill hσ defs main t, counts_fills hσ defs main ts]

theorem handled_fills {σ : Nat → T} (hσ : ∀ v, (σ v).plain) (defs main : Bool) : ∀ ts : List T, handled defs main (fills σ ts) = handled defs main ts
  | [] => rfl
  | .hole v :: ts => by
    have := hσ v
    simp only [fills, fill, handled]
    cases h : σ v <;> simp_all [handled, T.plain, handled_fills hσ defs main ts]
  | .handler a b :: ts => by simp only [fills, fill, handled, counts_fills hσ defs main b, handled_fills hσ defs main ts]
  | .node a :: ts => by simp only [fills, fill, handled, handled_fills hσ defs main ts]
  | .value a :: ts => by simp only [fills, fill, handled, handled_fills hσ defs main ts]
  | .ifExp a b c :: ts => by simp only [fills, fill, handled, handled_fills hσ defs main ts]
  | .branch _ _ a b c :: ts => by simp only [fills, fill, handled, handled_fills hσ defs main ts]
  | .def_ a b :: ts => by simp only [fills, fill, handled, handled_fills hσ defs main ts]
  | .import_ :: ts => by simp only [fills, fill, handled, handled_fills hσ defs main ts]
  | .try_ a b c d :: ts => by simp only [fills, fill, handled, handled_fills hσ defs main ts]
  | .with_ a b :: ts => by simp only [fills, fill, handled, handled_fills hσ defs main ts]
end

/-! ### What replaces the blocks -/

theorem toks_replaced (B : Blocks) (i : Nat) :
    toks (replaced B i) = tok (call B i) + (if returned B + B.control = 0 then 0 else 1 + returned B + 6 * B.control) := by
  unfold replaced
  split
  · simp [toks]
  · simp only [toks, tok, toks_append, toks_replicate, leaf, leaves, hasElse]
    simp
    omega

theorem counts_replaced (B : Blocks) (i : Nat) (defs : Bool) :
    counts defs true (replaced B i) = 1 + 2 * B.control := by
  unfold replaced
  split
  · simp [counts, count, call]
    omega
  · simp only [counts, count, counts_replicate, leaf, leaves, hasElse]
    simp
    omega

theorem tok_call (B : Blocks) (i : Nat) :
    tok (call B i) = 2 + toks ((seen [] B.avars).filterMap fun s => s[i]?.map (·.tree)) + (extra B).length := by
  simp only [call, args, tok, toks, toks_append, toks_leaves, tok_leaf]
  omega

theorem toks_flatMap (f : Nat → List T) : ∀ l : List Nat, toks (l.flatMap f) = (l.map fun i => toks (f i)).sum
  | [] => rfl
  | a :: l => by simp only [List.flatMap_cons, toks_append, List.map_cons, List.sum_cons, toks_flatMap f l]

theorem counts_flatMap (defs main : Bool) (f : Nat → List T) : ∀ l : List Nat, counts defs main (l.flatMap f) = (l.map fun i => counts defs main (f i)).sum
  | [] => rfl
  | a :: l => by simp only [List.flatMap_cons, counts_append, List.map_cons, List.sum_cons, counts_flatMap defs main f l]

/-- The tokens of what the call for the block `i` has for the places where blocks differ. -/
def given (B : Blocks) (i : Nat) : Nat := toks ((seen [] B.avars).filterMap fun s => s[i]?.map (·.tree))

theorem sum_const (l : List Nat) (n : Nat) : (l.map fun _ => n).sum = l.length * n := by
  induction l with
  | nil => simp
  | cons a l ih =>
    simp only [List.map_cons, List.sum_cons, ih, List.length_cons, Nat.succ_mul]
    omega

theorem sum_add (l : List Nat) (f g : Nat → Nat) : (l.map fun i => f i + g i).sum = (l.map f).sum + (l.map g).sum := by
  induction l with
  | nil => rfl
  | cons a l ih =>
    simp only [List.map_cons, List.sum_cons, ih]
    omega

theorem toks_calls (B : Blocks) :
    toks (calls B) = ((List.range B.parts.length).map (given B)).sum +
      B.parts.length * (2 + (extra B).length + (if returned B + B.control = 0 then 0 else 1 + returned B + 6 * B.control)) := by
  have : ∀ i, toks (replaced B i) = given B i + (2 + (extra B).length + (if returned B + B.control = 0 then 0 else 1 + returned B + 6 * B.control)) := by
    intro i
    rw [toks_replaced, tok_call, given]
    omega
  simp only [calls, toks_flatMap, this]
  rw [sum_add, sum_const, List.length_range]

theorem counts_calls (B : Blocks) (defs : Bool) : counts defs true (calls B) = B.parts.length * (1 + 2 * B.control) := by
  simp only [calls, counts_flatMap, counts_replaced]
  rw [sum_const, List.length_range]

theorem tok_function (B : Blocks) : tok (function B) = 2 + (seen [] B.avars).length + (extra B).length + toks B.core := by
  simp only [function, tok, toks, toks_append, toks_leaves]
  omega

theorem typeMismatch_iff (avars : List (List Sub)) :
    typeMismatch avars = false ↔ ∀ subs ∈ avars, ∀ a ∈ subs, ∀ b ∈ subs, a.type = b.type := by
  simp [typeMismatch]

theorem seen_spec : ∀ (as acc : List (List Sub)), (acc.map fun s => s.map (·.key)).Nodup →
    ((seen acc as).map fun s => s.map (·.key)).Nodup ∧ (∀ s, s ∈ seen acc as → s ∈ acc ∨ s ∈ as) ∧
      (∀ s ∈ acc, s ∈ seen acc as) ∧ ∀ s ∈ as, s.map (·.key) ∈ (seen acc as).map fun s => s.map (·.key)
  | [], acc, h => ⟨h, fun _ h => .inl h, fun _ h => h, fun _ h => by cases h⟩
  | a :: as, acc, h => by
    unfold seen
    split
    · rename_i hc
      obtain ⟨h1, h2, h3, h4⟩ := seen_spec as acc h
      refine ⟨h1, fun s hs => ?_, h3, fun s hs => ?_⟩
      · rcases h2 s hs with h | h
        · exact .inl h
        · exact .inr (by simp [h])
      · rcases List.mem_cons.1 hs with rfl | hs
        · obtain ⟨b, hb, he⟩ := List.any_eq_true.1 hc
          exact List.mem_map.2 ⟨b, h3 b hb, by simpa using he⟩
        · exact h4 s hs
    · rename_i hc
      have hn : ((acc ++ [a]).map fun s => s.map (·.key)).Nodup := by
        rw [List.map_append, List.nodup_append]
        refine ⟨h, by simp, fun x hx y hy e => hc ?_⟩
        simp only [List.map_cons, List.map_nil, List.mem_singleton] at hy
        obtain ⟨b, hb, rfl⟩ := List.mem_map.1 hx
        exact List.any_eq_true.2 ⟨b, hb, by simp [e, hy]⟩
      obtain ⟨h1, h2, h3, h4⟩ := seen_spec as (acc ++ [a]) hn
      refine ⟨h1, fun s hs => ?_, fun s hs => h3 s (by simp [hs]), fun s hs => ?_⟩
      · rcases h2 s hs with h | h
        · rcases List.mem_append.1 h with h | h
          · exact .inl h
          · exact .inr (by simp_all)
        · exact .inr (by simp [h])
      · rcases List.mem_cons.1 hs with rfl | hs
        · exact List.mem_map.2 ⟨s, h3 s (by simp), rfl⟩
        · exact h4 s hs

theorem saves_iff {α : Type} (a b c d : Nat) (m : α) :
    (if LoopMerge.saves a b c d = true then some m else none).isSome = true ↔ 5 * c < 4 * a ∧ d ≤ b + 1 := by
  simp only [LoopMerge.saves]
  by_cases h : 5 * c < 4 * a <;> by_cases h' : d ≤ b + 1 <;> simp [h, h']

/-! ### C117 -/

/-- **C117**: it is reported just where in each place the values have the same type, the calls and the function have less than four fifths of the
tokens of the blocks, and the calls at most one statement more than the blocks. -/
theorem C117_reported (B : Blocks) :
    (toFunction B).isSome = true ↔
      (∀ subs ∈ B.avars, ∀ a ∈ subs, ∀ b ∈ subs, a.type = b.type) ∧
      5 * (((List.range B.parts.length).map (given B)).sum +
          B.parts.length * (2 + (extra B).length + (if returned B + B.control = 0 then 0 else 1 + returned B + 6 * B.control)) +
          (2 + (seen [] B.avars).length + (extra B).length + toks B.core)) <
        4 * (B.parts.map fun p => toks p.2).sum ∧
      B.parts.length * (1 + 2 * B.control) ≤ (B.parts.map fun p => counts false true p.2).sum + 1 := by
  rw [← typeMismatch_iff]
  unfold toFunction
  rw [toks_calls, tok_function, counts_calls]
  have hd : count false true (function B) = 0 := by simp [function, count]
  rw [hd]
  cases h : typeMismatch B.avars
  · simp only [Bool.false_eq_true, if_false, true_and]
    rw [saves_iff, Nat.add_zero]
  · simp

/-- **C117**: what the message says. -/
theorem C117_message {B : Blocks} {m : Nat × Nat × List Nat} (h : toFunction B = some m) :
    m = (B.parts.length, counts false true B.core, B.parts.map (·.1)) := by
  unfold toFunction at h
  split at h
  · cases h
  · split at h
    · cases h; rfl
    · cases h

/-- **C117**: with the new function and its calls instead of the blocks, the code has less than four fifths of the tokens. -/
theorem C117_shorter {B : Blocks} (h : (toFunction B).isSome = true) :
    5 * (toks (calls B) + tok (function B)) < 4 * (B.parts.map fun p => toks p.2).sum := by
  rw [toks_calls, tok_function]
  exact ((C117_reported B).1 h).2.1

/-- **C117**: the new function has a parameter for each place where blocks differ, but only one for places in which all blocks have the same. -/
theorem C117_once (B : Blocks) :
    (∀ s ∈ B.avars, ∃ u ∈ seen [] B.avars, u.map (·.key) = s.map (·.key)) ∧ (∀ u ∈ seen [] B.avars, u ∈ B.avars) ∧
      ((seen [] B.avars).map fun s => s.map (·.key)).Nodup := by
  obtain ⟨h1, h2, -, h4⟩ := seen_spec B.avars [] (by simp)
  refine ⟨fun s hs => ?_, fun u hu => ?_, h1⟩
  · obtain ⟨u, hu, e⟩ := List.mem_map.1 (h4 s hs)
    exact ⟨u, hu, e⟩
  · rcases h2 u hu with h | h
    · cases h
    · exact h

/-- The blocks are what they have in common with something else in the places where they differ. -/
def Alike (B : Blocks) (σ : Nat → Nat → T) : Prop :=
  ∀ i p, B.parts[i]? = some p → (∀ v, (σ i v).plain) ∧ p.2 = fills (σ i) B.core

theorem sum_same {n : Nat} {f : Nat × List T → Nat} : ∀ {l : List (Nat × List T)}, (∀ p ∈ l, f p = n) → (l.map f).sum = l.length * n
  | [], _ => by simp
  | p :: l, h => by
    have ih := sum_same (f := f) fun q hq => h q (List.mem_cons_of_mem p hq)
    have hp := h p List.mem_cons_self
    simp only [List.map_cons, List.sum_cons, ih, hp, List.length_cons, Nat.succ_mul]
    omega

theorem alike_counts {B : Blocks} {σ : Nat → Nat → T} (ha : Alike B σ) (defs main : Bool) :
    (B.parts.map fun p => counts defs main p.2).sum = B.parts.length * counts defs main B.core := by
  refine sum_same fun p hp => ?_
  obtain ⟨i, hi⟩ := List.mem_iff_getElem?.1 hp
  obtain ⟨h1, h2⟩ := ha i p hi
  show counts defs main p.2 = _
  rw [h2, counts_fills h1]

/-- **C117**: if no statement leaves the blocks, there are at most one statement more than before, with the function and its statements. -/
theorem C117_statements_partial {B : Blocks} {σ : Nat → Nat → T} (ha : Alike B σ) (hk : 2 ≤ B.parts.length) (hc : B.control = 0)
    (hs : 2 ≤ counts true true B.core) :
    counts true true (calls B) + count true true (function B) ≤ (B.parts.map fun p => counts true true p.2).sum + 1 := by
  rw [alike_counts ha, counts_calls, hc]
  simp only [function, count, if_true]
  obtain ⟨k, hk⟩ := Nat.exists_eq_add_of_le hk
  obtain ⟨s, hs⟩ := Nat.exists_eq_add_of_le hs
  rw [hk, hs]
  simp only [Nat.add_mul, Nat.mul_add]
  omega

/-- **C117**: each of the blocks has more than twice as many statements as leave it. -/
theorem C117_leaving {B : Blocks} {σ : Nat → Nat → T} (ha : Alike B σ) (hk : 2 ≤ B.parts.length) (h : (toFunction B).isSome = true) :
    1 + 2 * B.control ≤ counts false true B.core := by
  have h3 := ((C117_reported B).1 h).2.2
  rw [alike_counts ha] at h3
  by_contra hn
  have : counts false true B.core ≤ 2 * B.control := by omega
  have := Nat.mul_le_mul_left B.parts.length this
  rw [Nat.mul_add] at h3
  omega

/-- **C117**: blocks that do not differ are reported only if they are long enough: with `k` of them, `(4 k - 5)` times their tokens are more than
`10 (k + 1)`, which is more than ten tokens for two blocks. -/
theorem C117_long {B : Blocks} (hs : ∀ p ∈ B.parts, p.2 = B.core) (h : (toFunction B).isSome = true) :
    10 * (B.parts.length + 1) + 5 * toks B.core < 4 * (B.parts.length * toks B.core) := by
  have h2 := ((C117_reported B).1 h).2.1
  rw [sum_same (n := toks B.core) fun p hp => by rw [hs p hp]] at h2
  simp only [Nat.mul_add] at h2
  omega

theorem C117_long_two {B : Blocks} (hs : ∀ p ∈ B.parts, p.2 = B.core) (h : (toFunction B).isSome = true) (hk : B.parts.length = 2) :
    10 < toks B.core := by
  have := C117_long hs h
  rw [hk] at this
  omega

theorem C117_many {B : Blocks} (hs : ∀ p ∈ B.parts, p.2 = B.core) (h : (toFunction B).isSome = true) : 2 ≤ B.parts.length := by
  have := C117_long hs h
  by_contra hn
  have h1 : B.parts.length = 0 ∨ B.parts.length = 1 := by omega
  rcases h1 with h1 | h1 <;> rw [h1] at this <;> omega

/-! ### Examples -/

/-- A statement with so many names. -/
def simple (n : Nat) : T := .node (List.replicate n leaf)

/-- Two blocks of two statements that do not differ, on the given lines. -/
def same (n : Nat) : Blocks := ⟨[(3, [simple 5, simple n]), (9, [simple 5, simple n])], [simple 5, simple n], [], [[], []], [[], []], 0⟩

/-- Eleven tokens are enough. -/
example : toFunction (same 4) = some (2, 2, [3, 9]) ∧ toFunction (same 3) = none := by decide +kernel

example : 10 < toks (same 4).core := C117_long_two (B := same 4) (by simp [same]) (by decide +kernel) rfl

example : 2 ≤ (same 4).parts.length := C117_many (B := same 4) (by simp [same]) (by decide +kernel)

/-- `x = f(1)`, `y = g(x, 1)` and `x = f(2)`, `y = g(x, 2)`, with more in them: what is passed for `1` and `2` is passed once. -/
def differ : Blocks where
  parts := [(3, [.node [leaf, .node [leaf, .node []]], .node [leaf, .node [leaf, leaf, .node []], simple 9]]),
    (7, [.node [leaf, .node [leaf, .node []]], .node [leaf, .node [leaf, leaf, .node []], simple 9]])]
  core := [.node [leaf, .node [leaf, .hole 0]], .node [leaf, .node [leaf, leaf, .hole 1], simple 9]]
  avars := [[⟨1, 0, leaf⟩, ⟨2, 0, leaf⟩], [⟨1, 0, leaf⟩, ⟨2, 0, leaf⟩]]
  before := [[], []]
  after := [[], []]
  control := 0

example : toFunction differ = some (2, 2, [3, 7]) ∧ (seen [] differ.avars).length = 1 ∧ toks (calls differ) = 6 ∧ tok (function differ) = 24 := by
  decide +kernel

example : ((seen [] differ.avars).map fun s => s.map (·.key)).Nodup := (C117_once differ).2.2

theorem differ_alike : Alike differ fun _ _ => leaf := by
  intro i p hp
  have hm : p ∈ differ.parts := List.mem_of_getElem? hp
  simp only [differ, List.mem_cons, List.not_mem_nil, or_false] at hm
  refine ⟨fun _ => trivial, ?_⟩
  rcases hm with rfl | rfl <;> simp [differ, fills, fill, simple, leaf]

example : counts true true (calls differ) + count true true (function differ) ≤ 5 :=
  C117_statements_partial (B := differ) differ_alike (by decide) rfl (by decide)

example : 1 + 2 * differ.control ≤ counts false true differ.core := C117_leaving differ_alike (by decide) (by decide +kernel)

example : 5 * (toks (calls differ) + tok (function differ)) < 4 * (differ.parts.map fun p => toks p.2).sum := C117_shorter (by decide +kernel)

/-- Values of different types are not passed. -/
example : toFunction { differ with avars := [[⟨1, 0, leaf⟩, ⟨2, 1, leaf⟩]] } = none := by decide +kernel

/-- `if a: f()`, `elif b: f()`, `else: f()` with an expression `f() if c else d` in it -/
example : tok (.branch true false [leaf] [.value (.node [leaf])]
    [.branch true false [leaf] [.value (.node [leaf])] [.value (.ifExp (.node [leaf]) leaf leaf)]]) = 15 ∧
    count true true (.branch true false [leaf] [.value (.node [leaf])]
      [.branch true false [leaf] [.value (.node [leaf])] [.value (.ifExp (.node [leaf]) leaf leaf)]]) = 6 := by decide +kernel

/-- `try: a`, `except E: b`, `else: c`, `finally: with d: e` and `for x in y: z` with `else: if u: v` -/
example : count true true (.try_ [leaf] [.handler [leaf] [leaf]] [leaf] [.with_ [leaf] [leaf]]) = 7 ∧
    count true true (.branch false false [leaf, leaf] [leaf] [.branch true false [leaf] [leaf] []]) = 5 ∧
    count false true (.def_ [leaf] [leaf]) = 0 ∧ count true true (.def_ [leaf] [leaf]) = 2 ∧
    count false true .import_ = 0 ∧ count true true .import_ = 1 ∧
    count true false (.branch true true [leaf] [leaf] []) = 0 ∧ count true true (.branch true true [leaf] [leaf] []) = 2 := by decide +kernel

/-! ### Where the code does not do what is said -/

/-- Two blocks with a long statement and `if …: return`. -/
def leaving : Blocks where
  parts := [(3, [simple 40, .branch true false [leaf] [leaf] []]), (9, [simple 40, .branch true false [leaf] [leaf] []])]
  core := [simple 40, .branch true false [leaf] [leaf] []]
  avars := []
  before := [[], []]
  after := [[], []]
  control := 1

/-- The statements of the function are not counted: instead of six statements there would be ten. -/
theorem C117_statements_counterexample :
    toFunction leaving = some (2, 3, [3, 9]) ∧ (leaving.parts.map fun p => counts true true p.2).sum = 6 ∧
      counts true true (calls leaving) + count true true (function leaving) = 10 := by decide +kernel

/-- Two blocks of two statements with eighteen tokens in which a variable `x` is used that is defined before them. -/
def defined (vs : List (List Var)) : Blocks := { same 11 with before := vs }

/-- The variable counts twice if the blocks are in different functions, so that the new function has two parameters with the same name. -/
theorem C117_names_counterexample :
    toFunction (defined [[⟨"x".toList, 0⟩], [⟨"x".toList, 0⟩]]) = some (2, 2, [3, 9]) ∧
      toFunction (defined [[⟨"x".toList, 1⟩], [⟨"x".toList, 2⟩]]) = none ∧
      (extra (defined [[⟨"x".toList, 1⟩], [⟨"x".toList, 2⟩]])).map (·.name) = ["x".toList, "x".toList] := by decide +kernel

/-- What is used after the blocks is counted for all of them: each call is assigned to two variables if there are two blocks. -/
theorem C117_returned_counterexample :
    toFunction { same 11 with after := [[⟨"x".toList, 0⟩], []] } = some (2, 2, [3, 9]) ∧
      toFunction { same 11 with after := [[⟨"x".toList, 0⟩], [⟨"x".toList, 0⟩]] } = none ∧
      returned { same 11 with after := [[⟨"x".toList, 0⟩], [⟨"x".toList, 0⟩]] } = 2 := by decide +kernel

end Verif.Extract
