import Verif.Model.Elif
import Mathlib.Data.List.Basic

/-!
**C63** and **C64**: what is reported about `if` statements with `elif` is right.

`holds` says which translated tests hold and `truth` which tests do; `Faithful` that they agree. The solver is any function
that only says that a condition implies another one if it does (`Sound`).
-/

namespace Verif.Elif

variable {α ν : Type}

/-! ### Meaning -/

mutual
/-- The meaning of a condition. -/
def Cond.eval (holds : α → Bool) : Cond α → Bool
  | .atom a => holds a
  | .not c => !c.eval holds
  | .and cs => Cond.evalAll holds cs
  | .or cs => Cond.evalAny holds cs

def Cond.evalAll (holds : α → Bool) : List (Cond α) → Bool
  | [] => true
  | c :: cs => c.eval holds && Cond.evalAll holds cs

def Cond.evalAny (holds : α → Bool) : List (Cond α) → Bool
  | [] => false
  | c :: cs => c.eval holds || Cond.evalAny holds cs
end

/-- The truth value of a test. -/
def Test.truth (truth : ν → Bool) : Test α ν → Bool
  | .single node _ => truth node
  | .boolOp true operands => operands.any fun o => truth o.1
  | .boolOp false operands => operands.all fun o => truth o.1

/-- The translation of a test has its truth value. -/
def Test.Faithful (holds : α → Bool) (truth : ν → Bool) : Test α ν → Prop
  | .single node c => ∀ c', c = some c' → c'.eval holds = truth node
  | .boolOp _ operands => ∀ o ∈ operands, ∀ c', o.2 = some c' → c'.eval holds = truth o.1

/-- The branch that is executed, of those from `n` on. -/
def executed (truth : ν → Bool) : List (Test α ν) → Bool → Nat → Option Nat
  | [], hasElse, n => if hasElse then some n else none
  | t :: ts, hasElse, n => if t.truth truth then some n else executed truth ts hasElse (n + 1)

/-- The branch that is executed if the statement is written as suggested. -/
def executedOrder (truth : ν → Bool) : List (Nat × Option (Bool × List ν)) → Option Nat
  | [] => none
  | (n, none) :: _ => some n
  | (n, some (true, operands)) :: bs => if operands.any truth then some n else executedOrder truth bs
  | (n, some (false, operands)) :: bs => if operands.all truth then some n else executedOrder truth bs

/-- The solver is right. -/
def Sound (imp : Cond α → Cond α → Bool) (holds : α → Bool) : Prop :=
  ∀ a b, imp a b = true → a.eval holds = true → b.eval holds = true

/-! ### Blocks -/

theorem evalAll_eq (h : α → Bool) (cs : List (Cond α)) : Cond.evalAll h cs = cs.all (Cond.eval h) := by
  induction cs with
  | nil => rfl
  | cons c cs ih => simp [Cond.evalAll, ih]

theorem evalAny_eq (h : α → Bool) (cs : List (Cond α)) : Cond.evalAny h cs = cs.any (Cond.eval h) := by
  induction cs with
  | nil => rfl
  | cons c cs ih => simp [Cond.evalAny, ih]

theorem eval_boolOpCond (h : α → Bool) (isOr : Bool) (cs : List (Cond α)) :
    (boolOpCond isOr cs).eval h = if isOr then cs.any (Cond.eval h) else cs.all (Cond.eval h) := by
  cases isOr <;> simp [boolOpCond, Cond.eval, evalAll_eq, evalAny_eq]

/-- Whether a block is executed when it is reached. -/
def Block.holds (h : α → Bool) (b : Block α ν) : Bool :=
  match b.condition with
  | none => true
  | some c => c.eval h

/-- The truth value of a list of operands. -/
def nodesHold (truth : ν → Bool) (isOr : Bool) (nodes : List ν) : Bool :=
  if isOr then nodes.any truth else nodes.all truth

/-- The parts of a block belong together. -/
structure Block.Good (h : α → Bool) (truth : ν → Bool) (b : Block α ν) : Prop where
  none : b.condition = none → b.negated = none
  neg : ∀ c, b.condition = some c → ∃ n, b.negated = some n ∧ n.eval h = !c.eval h
  nodes : ∀ c, b.condition = some c → c.eval h = nodesHold truth b.isOr b.operands
  ops : b.operands.length > 1 → b.boolOps.map (Cond.eval h) = b.operands.map truth ∧
    (b.isOr = true → b.negatedOps.map (Cond.eval h) = b.operands.map fun n => !truth n)

theorem default_good (h : α → Bool) (truth : ν → Bool) (b : Block α ν) : b.default.Good h truth :=
  ⟨fun _ => rfl, by simp [Block.default], by simp [Block.default], by simp [Block.default]⟩

theorem position_good (h : α → Bool) (truth : ν → Bool) (n : Nat) :
    ({ position := n } : Block α ν).Good h truth := ⟨fun _ => rfl, by simp, by simp, by simp⟩

theorem Block.Good.negated {h : α → Bool} {truth : ν → Bool} {b : Block α ν} (hb : b.Good h truth) {n : Cond α}
    (hn : b.negated = some n) : n.eval h = !b.holds h := by
  unfold Block.holds
  cases hc : b.condition with
  | none => rw [hb.none hc] at hn; cases hn
  | some c =>
    obtain ⟨n', hn', he⟩ := hb.neg c hc
    rw [hn] at hn'
    cases hn'
    exact he

theorem allSome_map {σ : Type} (f : σ → Option (Cond α)) : ∀ {l : List σ} {ns : List (Cond α)},
    allSome (l.map f) = some ns → l.map f = ns.map some
  | [], ns, hs => by simp [allSome] at hs; simp [hs]
  | x :: l, ns, hs => by
    simp only [List.map_cons] at hs ⊢
    cases hf : f x with
    | none => rw [hf] at hs; simp [allSome] at hs
    | some c =>
      rw [hf] at hs
      simp only [allSome] at hs
      cases hr : allSome (l.map f) with
      | none => rw [hr] at hs; cases hs
      | some ds =>
        rw [hr] at hs
        cases hs
        simp [allSome_map f hr]

/-- The negations of blocks hold exactly if none of the blocks is executed. -/
theorem allSome_negated {h : α → Bool} {truth : ν → Bool} : ∀ {bs : List (Block α ν)} {ns : List (Cond α)},
    (∀ b ∈ bs, b.Good h truth) → allSome (bs.map Block.negated) = some ns →
    (Cond.and ns).eval h = bs.all fun b => !b.holds h := by
  intro bs
  induction bs with
  | nil => intro ns hg hs; simp [allSome] at hs; subst hs; rfl
  | cons b bs ih =>
    intro ns hg hs
    have := allSome_map _ hs
    cases ns with
    | nil => simp at this
    | cons n ns =>
      simp only [List.map_cons, List.cons.injEq] at this
      have hn := (hg b (by simp)).negated this.1
      simp only [List.map_cons, this.1, allSome] at hs
      cases hr : allSome (bs.map Block.negated) with
      | none => rw [hr] at hs; cases hs
      | some ds =>
        rw [hr] at hs
        cases hs
        have := ih (fun b hb => hg b (by simp [hb])) hr
        simp only [Cond.eval] at this ⊢
        simp [Cond.evalAll, hn, this]

/-! ### Removing operands -/

theorem map_removeAt {σ τ : Type} (f : σ → τ) (r : List Nat) : ∀ (i : Nat) (xs : List σ),
    (removeAt r i xs).map f = removeAt r i (xs.map f)
  | _, [] => rfl
  | i, x :: xs => by
    simp only [removeAt, List.map_cons]
    split <;> simp [map_removeAt f r]

theorem all_removeAt (r : List Nat) : ∀ (i : Nat) (xs : List Bool),
    (∀ j, i + j ∈ r → ∀ b, xs[j]? = some b → b = true) → (removeAt r i xs).all id = xs.all id
  | _, [], _ => rfl
  | i, x :: xs, h => by
    have ih := all_removeAt r (i + 1) xs fun j hj b hb => h (j + 1) (by rw [← Nat.add_assoc, Nat.add_right_comm]; exact hj) b (by simpa using hb)
    by_cases hi : i ∈ r
    · have : x = true := h 0 (by simpa using hi) x rfl
      simp [removeAt, hi, ih, this]
    · simp [removeAt, hi, ih]

theorem any_removeAt (r : List Nat) : ∀ (i : Nat) (xs : List Bool),
    (∀ j, i + j ∈ r → ∀ b, xs[j]? = some b → b = false) → (removeAt r i xs).any id = xs.any id
  | _, [], _ => rfl
  | i, x :: xs, h => by
    have ih := any_removeAt r (i + 1) xs fun j hj b hb => h (j + 1) (by rw [← Nat.add_assoc, Nat.add_right_comm]; exact hj) b (by simpa using hb)
    by_cases hi : i ∈ r
    · have : x = false := h 0 (by simpa using hi) x rfl
      simp [removeAt, hi, ih, this]
    · simp [removeAt, hi, ih]

section
variable {imp : Cond α → Cond α → Bool} {h : α → Bool}

theorem impliedIndices_true (hs : Sound imp h) {a : Cond α} (ha : a.eval h = true) : ∀ (cs : List (Cond α)) (i k : Nat),
    k ∈ impliedIndices imp a i cs → i ≤ k ∧ ∃ c, cs[k - i]? = some c ∧ c.eval h = true
  | [], i, k, hk => by simp [impliedIndices] at hk
  | c :: cs, i, k, hk => by
    have rest : k ∈ impliedIndices imp a (i + 1) cs → i ≤ k ∧ ∃ c', (c :: cs)[k - i]? = some c' ∧ c'.eval h = true := by
      intro hk
      obtain ⟨hle, c', hc', he⟩ := impliedIndices_true hs ha cs (i + 1) k hk
      refine ⟨by omega, c', ?_, he⟩
      have : k - i = (k - (i + 1)) + 1 := by omega
      rw [this]
      simpa using hc'
    unfold impliedIndices at hk
    by_cases hc : imp a c = true
    · rw [if_pos hc] at hk
      rcases List.mem_cons.1 hk with rfl | hk
      · exact ⟨Nat.le_refl _, c, by simp, hs a c hc ha⟩
      · exact rest hk
    · rw [if_neg hc] at hk
      exact rest hk

theorem impliedIndices_length (a : Cond α) : ∀ (cs : List (Cond α)) (i : Nat),
    (impliedIndices imp a i cs).length ≤ cs.length
  | [], i => by simp [impliedIndices]
  | c :: cs, i => by
    have := impliedIndices_length a cs (i + 1)
    unfold impliedIndices
    by_cases hc : imp a c = true
    · rw [if_pos hc]; simp; omega
    · rw [if_neg hc]; simp; omega

theorem impliedIndices_all (hs : Sound imp h) {a : Cond α} (ha : a.eval h = true) : ∀ (cs : List (Cond α)) (i : Nat),
    (impliedIndices imp a i cs).length = cs.length → ∀ c ∈ cs, c.eval h = true
  | [], i, _, c, hc => by simp at hc
  | c :: cs, i, hl, d, hd => by
    have hle := impliedIndices_length (imp := imp) a cs (i + 1)
    unfold impliedIndices at hl
    by_cases hc : imp a c = true
    · rw [if_pos hc] at hl
      rcases List.mem_cons.1 hd with rfl | hd
      · exact hs a _ hc ha
      · exact impliedIndices_all hs ha cs (i + 1) (by simpa using hl) d hd
    · rw [if_neg hc] at hl
      simp at hl
      omega

variable {truth : ν → Bool}

theorem holds_nodes {b : Block α ν} (hb : b.Good h truth) {c : Cond α} (hc : b.condition = some c) :
    b.holds h = nodesHold truth b.isOr b.operands := by
  unfold Block.holds
  rw [hc]
  exact hb.nodes c hc

theorem removeOperands_nodes {b : Block α ν} (hb : b.Good h truth) (hl : b.operands.length > 1) (r : List Nat) :
    (boolOpCond b.isOr (removeAt r 0 b.boolOps)).eval h = nodesHold truth b.isOr (removeAt r 0 b.operands) := by
  have hmap : (removeAt r 0 b.boolOps).map (Cond.eval h) = (removeAt r 0 b.operands).map truth := by
    rw [map_removeAt, map_removeAt, (hb.ops hl).1]
  rw [eval_boolOpCond]
  unfold nodesHold
  cases b.isOr
  · have := congrArg (List.all · id) hmap
    simpa [List.all_map] using this
  · have := congrArg (List.any · id) hmap
    simpa [List.any_map] using this

theorem removeOperands_good {b : Block α ν} (hb : b.Good h truth) (hl : b.operands.length > 1) (r : List Nat) :
    (b.removeOperands r).Good h truth := by
  obtain ⟨ho, hn⟩ := hb.ops hl
  refine ⟨by simp [Block.removeOperands], ?_, ?_, ?_⟩
  · intro d hd
    simp only [Block.removeOperands, Option.some.injEq] at hd
    subst hd
    exact ⟨_, rfl, rfl⟩
  · intro d hd
    simp only [Block.removeOperands, Option.some.injEq] at hd
    subst hd
    exact removeOperands_nodes hb hl r
  · intro _
    refine ⟨by simp only [Block.removeOperands]; rw [map_removeAt, map_removeAt, ho], fun hor => ?_⟩
    simp only [Block.removeOperands] at hor ⊢
    rw [map_removeAt, map_removeAt, hn hor]

/-- Operands that are known to be true (or false, for `or`) can be removed. -/
theorem removeOperands_holds {b : Block α ν} (hb : b.Good h truth) {c : Cond α} (hc : b.condition = some c)
    (hl : b.operands.length > 1) {r : List Nat}
    (hr : ∀ k ∈ r, ∀ v, (b.operands.map truth)[k]? = some v → v = !b.isOr) :
    (b.removeOperands r).holds h = b.holds h := by
  rw [holds_nodes hb hc]
  unfold Block.holds
  simp only [Block.removeOperands]
  rw [removeOperands_nodes hb hl r]
  unfold nodesHold
  cases hor : b.isOr
  · have := all_removeAt r 0 (b.operands.map truth) fun j hj v hv => by
      have := hr j (by simpa using hj) v hv
      simpa [hor] using this
    rw [← map_removeAt] at this
    simpa [List.all_map] using this
  · have := any_removeAt r 0 (b.operands.map truth) fun j hj v hv => by
      have := hr j (by simpa using hj) v hv
      simpa [hor] using this
    rw [← map_removeAt] at this
    simpa [List.any_map] using this

/-- What is found out about a block under an assumption is right when the assumption holds. -/
theorem simplifications_right (hs : Sound imp h) {b : Block α ν} (hb : b.Good h truth) {a : Cond α}
    {always : Option Bool} {r : List Nat} (he : simplifications imp b a = .ok (always, r)) :
    (∃ c, b.condition = some c) ∧ (∀ v, always = some v → r = []) ∧
    (a.eval h = true → ∀ v, always = some v → b.holds h = v) ∧
    (r ≠ [] → b.operands.length > 1) ∧
    (a.eval h = true → r ≠ [] → ∀ k ∈ r, ∀ v, (b.operands.map truth)[k]? = some v → v = !b.isOr) := by
  unfold simplifications at he
  cases hc : b.condition with
  | none => rw [hc] at he; cases he
  | some c =>
    cases hn : b.negated with
    | none => rw [hc, hn] at he; cases he
    | some n =>
      rw [hc, hn] at he
      simp only at he
      have hholds : b.holds h = c.eval h := by unfold Block.holds; rw [hc]
      by_cases h1 : imp a c = true
      · simp only [if_pos h1, Except.ok.injEq, Prod.mk.injEq] at he
        obtain ⟨rfl, rfl⟩ := he
        refine ⟨⟨c, rfl⟩, by simp, fun ha v hv => ?_, by simp, by simp⟩
        cases hv
        rw [hholds, hs a c h1 ha]
      by_cases h2 : imp a n = true
      · simp only [if_neg h1, if_pos h2, Except.ok.injEq, Prod.mk.injEq] at he
        obtain ⟨rfl, rfl⟩ := he
        refine ⟨⟨c, rfl⟩, by simp, fun ha v hv => ?_, by simp, by simp⟩
        cases hv
        have := hs a n h2 ha
        rw [hb.negated hn] at this
        simpa using this
      by_cases h3 : b.operands.length > 1
      · obtain ⟨ho, hno⟩ := hb.ops h3
        by_cases h4 : (impliedIndices imp a 0 (if b.isOr then b.negatedOps else b.boolOps)).length = b.operands.length
        · simp only [if_neg h1, if_neg h2, if_pos h3, if_pos h4, Except.ok.injEq, Prod.mk.injEq] at he
          obtain ⟨rfl, rfl⟩ := he
          refine ⟨⟨c, rfl⟩, by simp, fun ha v hv => ?_, by simp, by simp⟩
          cases hv
          rw [holds_nodes hb hc]
          unfold nodesHold
          cases hor : b.isOr
          · rw [hor] at h4
            simp only [Bool.false_eq_true, if_false] at h4
            have hl := congrArg List.length ho
            simp only [List.length_map] at hl
            have := impliedIndices_all hs ha b.boolOps 0 (by omega)
            have hall : (b.boolOps.map (Cond.eval h)).all id = true := by
              simpa [List.all_map] using this
            rw [ho] at hall
            simpa [List.all_map] using hall
          · rw [hor] at h4
            simp only [if_true] at h4
            have hno := hno hor
            have hl := congrArg List.length hno
            simp only [List.length_map] at hl
            have := impliedIndices_all hs ha b.negatedOps 0 (by omega)
            have hall : (b.negatedOps.map (Cond.eval h)).all id = true := by
              simpa [List.all_map] using this
            rw [hno] at hall
            simpa [List.all_map] using hall
        · simp only [if_neg h1, if_neg h2, if_pos h3, if_neg h4, Except.ok.injEq, Prod.mk.injEq] at he
          obtain ⟨rfl, rfl⟩ := he
          refine ⟨⟨c, rfl⟩, by simp, by simp, fun _ => h3, fun ha _ k hk v hv => ?_⟩
          obtain ⟨-, d, hd, hde⟩ := impliedIndices_true hs ha _ 0 k hk
          simp only [Nat.sub_zero] at hd
          cases hor : b.isOr
          · rw [hor] at hd
            simp only [Bool.false_eq_true, if_false] at hd
            have : (b.boolOps.map (Cond.eval h))[k]? = some true := by simp [hd, hde]
            rw [ho, hv] at this
            simpa using this
          · rw [hor] at hd
            simp only [if_true] at hd
            have : (b.negatedOps.map (Cond.eval h))[k]? = some true := by simp [hd, hde]
            rw [hno hor] at this
            simp only [List.getElem?_map] at hv this
            cases hx : b.operands[k]? with
            | none => rw [hx] at hv; cases hv
            | some x =>
              rw [hx] at hv this
              simp at hv this
              subst hv
              simpa using this
      · simp only [if_neg h1, if_neg h2, if_neg h3, Except.ok.injEq, Prod.mk.injEq] at he
        obtain ⟨rfl, rfl⟩ := he
        exact ⟨⟨c, rfl⟩, by simp, by simp, by simp, by simp⟩

/-! ### Simplifying without reordering -/

/-- How blocks are simplified: the first argument is whether the first block is reached, the second one whether the last
block that remains is executed whenever it is reached. -/
inductive Simplified (h : α → Bool) (truth : ν → Bool) : Bool → Bool → List (Block α ν) → List (Block α ν) → Prop
  | done (r : Bool) : Simplified h truth r false [] []
  | otherwise (r : Bool) (b : Block α ν) : b.condition = none → Simplified h truth r true [b] [b]
  | stop (r : Bool) (b b' : Block α ν) (bs : List (Block α ν)) : b'.position = b.position →
      (r = true → b.holds h = true) → (r = true → b'.holds h = true) → b'.Good h truth → Simplified h truth r true (b :: bs) [b']
  | keep (r e : Bool) (b b' : Block α ν) (c : Cond α) (bs bs' : List (Block α ν)) : b'.position = b.position →
      b'.condition = some c → b'.Good h truth → (r = true → b'.holds h = b.holds h) →
      Simplified h truth (r && !b.holds h) e bs bs' → Simplified h truth r e (b :: bs) (b' :: bs')
  | drop (r e : Bool) (b : Block α ν) (bs bs' : List (Block α ν)) : b.condition ≠ none → (r = true → b.holds h = false) →
      Simplified h truth (r && !b.holds h) e bs bs' → Simplified h truth r e (b :: bs) bs'

/-- The branch of the first block that is executed. -/
def runs (h : α → Bool) : List (Block α ν) → Option Nat
  | [] => none
  | b :: bs => if b.holds h then some b.position else runs h bs

theorem Simplified.runs {r e : Bool} {bs bs' : List (Block α ν)} (hs : Simplified h truth r e bs bs') :
    r = true → runs h bs' = runs h bs := by
  induction hs with
  | done => simp
  | otherwise => simp
  | stop r b b' bs hp h1 h2 hg =>
    intro hr
    simp [Elif.runs, h1 hr, h2 hr, hp]
  | keep r e b b' c bs bs' hp hc hg hh hs ih =>
    intro hr
    cases hb : b.holds h with
    | true => simp [Elif.runs, hh hr, hb, hp]
    | false => simpa [Elif.runs, hh hr, hb] using ih (by simp [hr, hb])
  | drop r e b bs bs' hc hh hs ih =>
    intro hr
    have hb := hh hr
    simpa [Elif.runs, hb] using ih (by simp [hr, hb])

theorem Simplified.good {r e : Bool} {bs bs' : List (Block α ν)} (hs : Simplified h truth r e bs bs')
    (hg : ∀ b ∈ bs, b.Good h truth) : ∀ b ∈ bs', b.Good h truth := by
  induction hs with
  | done => simp
  | otherwise r b hc => exact hg
  | stop r b b' bs hp h1 h2 hg' => simpa using hg'
  | keep r e b b' c bs bs' hp hc hg' hh hs ih =>
    intro d hd
    rcases List.mem_cons.1 hd with rfl | hd
    · exact hg'
    · exact ih (fun b hb => hg b (by simp [hb])) d hd
  | drop r e b bs bs' hc hh hs ih => exact ih fun b hb => hg b (by simp [hb])

/-- If the last block is executed whenever it is reached, then some block is executed. -/
theorem Simplified.exhaustive {r e : Bool} {bs bs' : List (Block α ν)} (hs : Simplified h truth r e bs bs') :
    r = true → e = true → Elif.runs h bs' ≠ none := by
  induction hs with
  | done => simp
  | otherwise r b hc => intro _ _; simp [Elif.runs, Block.holds, hc]
  | stop r b b' bs hp h1 h2 hg => intro hr _; simp [Elif.runs, h2 hr]
  | keep r e b b' c bs bs' hp hc hg hh hs ih =>
    intro hr he
    cases hb : b.holds h with
    | true => simp [Elif.runs, hh hr, hb]
    | false => simpa [Elif.runs, hh hr, hb] using ih (by simp [hr, hb]) he
  | drop r e b bs bs' hc hh hs ih =>
    intro hr he
    have hb := hh hr
    exact ih (by simp [hr, hb]) he

/-- The last block is the one that counts for `e`. -/
theorem Simplified.last {r e : Bool} {bs bs' : List (Block α ν)} (hs : Simplified h truth r e bs bs') (he : e = false) :
    ∀ b, bs'.getLast? = some b → b.condition ≠ none := by
  induction hs with
  | done => simp
  | otherwise => cases he
  | stop => cases he
  | keep r e b b' c bs bs' hp hc hg hh hs ih =>
    intro d hd
    cases bs' with
    | nil => simp at hd; subst hd; simp [hc]
    | cons x xs => exact ih he d (by simpa using hd)
  | drop r e b bs bs' hc hh hs ih => exact ih he

/-- Blocks that are not simplified. -/
theorem Simplified.refl : ∀ {bs : List (Block α ν)} (r : Bool), (∀ b ∈ bs, b.Good h truth) →
    (∀ b ∈ bs.dropLast, b.condition ≠ none) →
    Simplified h truth r (bs.getLast?.any fun b => b.condition.isNone) bs bs
  | [], r, _, _ => .done r
  | [b], r, hg, _ => by
    cases hc : b.condition with
    | none => simp only [List.getLast?_singleton, Option.any_some, hc]; exact .otherwise r b hc
    | some c =>
      simp only [List.getLast?_singleton, Option.any_some, hc]
      exact .keep r false b b c [] [] rfl hc (hg b (by simp)) (fun _ => rfl) (.done _)
  | b :: b' :: bs, r, hg, hne => by
    have ih := Simplified.refl (bs := b' :: bs) (r && !b.holds h) (fun d hd => hg d (by simp [hd]))
      (fun d hd => hne d (by simp only [List.dropLast_cons_cons]; simp only [List.mem_cons]; exact .inr hd))
    obtain ⟨c, hc⟩ := Option.ne_none_iff_exists'.1 (hne b (by simp))
    have : (b :: b' :: bs).getLast? = (b' :: bs).getLast? := by simp [List.getLast?_cons_cons]
    rw [this]
    exact .keep r _ b b c _ _ rfl hc (hg b (by simp)) (fun _ => rfl) ih

theorem getElem?_pre {σ : Type} (pre rest : List σ) : (pre ++ rest)[pre.length]? = rest.head? := by
  cases rest <;> simp

theorem getLast?_pre {σ : Type} (pre : List σ) (x : σ) (xs : List σ) :
    (pre ++ x :: xs).getLast? = (x :: xs).getLast? := by
  rw [List.getLast?_append]
  cases hx : (x :: xs).getLast? with
  | none => simp at hx
  | some y => rfl

theorem kept_true {short : ν → Bool} {always : Option Bool} {b : Block α ν} (hk : kept short always b = true) :
    always = some true := by
  unfold kept at hk
  cases always with
  | none => simp at hk
  | some v =>
    cases v with
    | false => simp at hk
    | true => rfl

theorem simplifyAt_at {pre post : List (Block α ν)} {b : Block α ν} {always : Option Bool} {r : List Nat} :
    simplifyAt (pre ++ b :: post) pre.length always r =
      match always with
      | some true => .ok (pre ++ [b.default], false)
      | some false => .ok (pre ++ post, true)
      | none => if r = [] then .ok (pre ++ b :: post, false) else .ok (pre ++ b.removeOperands r :: post, false) := by
  unfold simplifyAt
  cases always with
  | none => by_cases hr : r = [] <;> simp [hr]
  | some v =>
    cases v
    · simp [List.eraseIdx_append_of_length_le]
    · simp

theorem elifCount_append {pre rest : List (Block α ν)} (hp : ∀ b ∈ pre, b.condition ≠ none) {n : Nat}
    (he : elifCount (pre ++ rest) = .ok n) :
    n = pre.length + (if rest.getLast?.any (fun b => b.condition.isNone) then rest.length - 1 else rest.length) := by
  unfold elifCount at he
  cases rest with
  | nil =>
    cases hl : pre.getLast? with
    | none => simp [hl] at he
    | some b =>
      have hb := hp b (List.mem_of_getLast? hl)
      simp only [List.append_nil, hl] at he
      obtain ⟨c, hc⟩ := Option.ne_none_iff_exists'.1 hb
      simp [hc] at he
      simp [he]
  | cons x xs =>
    have hl : (pre ++ x :: xs).getLast? = (x :: xs).getLast? := getLast?_pre pre x xs
    rw [hl] at he
    cases hx : (x :: xs).getLast? with
    | none => simp at hx
    | some b =>
      rw [hx] at he
      simp only [Except.ok.injEq] at he
      rw [← he]
      simp only [Option.any_some]
      split <;> simp

/-- What the loop keeps true of the blocks it has dealt with (`pre`) and the others. -/
structure LoopInv (h : α → Bool) (truth : ν → Bool) (orig pre rest : List (Block α ν)) (previous : Cond α) (count : Nat) :
    Prop where
  before : ∀ b ∈ pre, b.condition ≠ none ∧ b.Good h truth
  after : ∀ b ∈ rest, b.Good h truth
  mid : ∀ b ∈ rest.dropLast, b.condition ≠ none
  prev : previous.eval h = pre.all (fun b => !b.holds h)
  total : count =
    pre.length + (if rest.getLast?.any (fun b => b.condition.isNone) then rest.length - 1 else rest.length)
  cont : ∀ e X, Simplified h truth (pre.all fun b => !b.holds h) e rest X → Simplified h truth true e orig (pre ++ X)

section
variable {orig pre rest : List (Block α ν)} {b : Block α ν} {previous : Cond α} {count : Nat}

theorem LoopInv.lastPre (hi : LoopInv h truth orig pre rest previous count) :
    pre.getLast?.any (fun b => b.condition.isNone) = false := by
  cases hl : pre.getLast? with
  | none => rfl
  | some b =>
    obtain ⟨c, hc⟩ := Option.ne_none_iff_exists'.1 (hi.before b (List.mem_of_getLast? hl)).1
    simp [hc]

theorem LoopInv.cond (hi : LoopInv h truth orig pre (b :: rest) previous count) (hlt : pre.length < count) :
    b.condition ≠ none := by
  cases rest with
  | nil =>
    intro hc
    have := hi.total
    simp [hc] at this
    omega
  | cons x xs => exact hi.mid b (by simp)

theorem LoopInv.mid' (hi : LoopInv h truth orig pre (b :: rest) previous count) :
    ∀ d ∈ rest.dropLast, d.condition ≠ none := by
  intro d hd
  cases rest with
  | nil => simp at hd
  | cons x xs => exact hi.mid d (by simp only [List.dropLast_cons_cons, List.mem_cons]; exact .inr hd)

/-- A block is kept, perhaps without some operands. -/
theorem LoopInv.keep (hi : LoopInv h truth orig pre (b :: rest) previous count) (hbc : b.condition ≠ none)
    {b' : Block α ν} {c' n : Cond α} (hp : b'.position = b.position) (hc : b'.condition = some c')
    (hn : b'.negated = some n) (hg : b'.Good h truth)
    (hh : (pre.all fun b => !b.holds h) = true → b'.holds h = b.holds h) :
    LoopInv h truth orig (pre ++ [b']) rest (.and [previous, n]) count := by
  refine ⟨?_, fun d hd => hi.after d (by simp [hd]), hi.mid', ?_, ?_, ?_⟩
  · intro d hd
    rcases List.mem_append.1 hd with hd | hd
    · exact hi.before d hd
    · simp only [List.mem_singleton] at hd; subst hd; exact ⟨by simp [hc], hg⟩
  · simp [Cond.eval, Cond.evalAll, hi.prev, hg.negated hn]
  · rw [hi.total]
    obtain ⟨c, hc⟩ := Option.ne_none_iff_exists'.1 hbc
    cases rest with
    | nil => simp [hc]
    | cons x xs =>
      have : (b :: x :: xs).getLast? = (x :: xs).getLast? := by simp [List.getLast?_cons_cons]
      rw [this]
      split <;> simp <;> omega
  · intro e X hX
    have hX' : Simplified h truth (pre.all (fun b => !b.holds h)) e (b :: rest) (b' :: X) := by
      refine .keep _ e b b' c' rest X hp hc hg hh ?_
      cases hall : pre.all (fun b => !b.holds h) with
      | false =>
        rw [List.all_append, hall] at hX
        simpa using hX
      | true =>
        rw [List.all_append, hall] at hX
        simpa [← hh hall] using hX
    simpa using hi.cont e _ hX'

/-- A block that is not executed is dropped. -/
theorem LoopInv.drop (hi : LoopInv h truth orig pre (b :: rest) previous count) (hbc : b.condition ≠ none)
    (hh : (pre.all fun b => !b.holds h) = true → b.holds h = false) (e : Bool) (X : List (Block α ν))
    (hX : Simplified h truth (pre.all fun b => !b.holds h) e rest X) : Simplified h truth true e orig (pre ++ X) := by
  refine hi.cont e X (.drop _ e b rest X hbc hh ?_)
  cases hall : pre.all (fun b => !b.holds h) with
  | false => rw [hall] at hX; simpa using hX
  | true => rw [hall] at hX; simpa [hh hall] using hX

end

theorem immediateLoop_simplified (hs : Sound imp h) {short : ν → Bool} {orig : List (Block α ν)} :
    ∀ (fuel : Nat) (pre rest : List (Block α ν)) (previous : Cond α) (count : Nat) (made : Bool)
      (bs' : List (Block α ν)) (made' else' : Bool),
    immediateLoop imp short fuel (pre ++ rest) pre.length previous count made false = .ok (bs', made', else') →
    LoopInv h truth orig pre rest previous count →
    Simplified h truth true (bs'.getLast?.any (fun b => b.condition.isNone) || else') orig bs' := by
  intro fuel
  induction fuel with
  | zero => intro pre rest previous count made bs' made' else' he; cases he
  | succ fuel ih =>
    intro pre rest previous count made bs' made' else' he hinv
    rw [immediateLoop] at he
    by_cases hi : pre.length < count
    · rw [if_pos hi, getElem?_pre] at he
      cases rest with
      | nil => have := hinv.total; simp at this; omega
      | cons b rest =>
        simp only [List.head?_cons] at he
        have hbc := hinv.cond hi
        have hbg := hinv.after b (by simp)
        cases hsim : simplifications imp b previous with
        | error x => rw [hsim] at he; cases he
        | ok p =>
          obtain ⟨always, r⟩ := p
          rw [hsim] at he
          simp only at he
          obtain ⟨⟨c, hc⟩, hr0, halw, hrl, hrv⟩ := simplifications_right hs hbg hsim
          rw [hinv.prev] at halw hrv
          have go : ∀ (b' : Block α ν) (c' n : Cond α) (made : Bool), b'.position = b.position → b'.condition = some c' →
              b'.negated = some n → b'.Good h truth →
              ((pre.all fun b => !b.holds h) = true → b'.holds h = b.holds h) →
              immediateLoop imp short fuel (pre ++ b' :: rest) (pre.length + 1) (.and [previous, n]) count made false =
                .ok (bs', made', else') →
              Simplified h truth true (bs'.getLast?.any (fun b => b.condition.isNone) || else') orig bs' := by
            intro b' c' n made hp' hc' hn' hg' hb' he
            exact ih (pre ++ [b']) rest (.and [previous, n]) count made bs' made' else'
              (by rw [List.append_assoc, List.length_append]; exact he) (hinv.keep hbc hp' hc' hn' hg' hb')
          by_cases hch : always.isSome = true ∨ r ≠ []
          · rw [if_pos hch] at he
            by_cases hkept : kept short always b = true
            · rw [if_pos hkept] at he
              simp only [Except.ok.injEq, Prod.mk.injEq] at he
              obtain ⟨rfl, -, rfl⟩ := he
              have hat := kept_true hkept
              have ht : (pre ++ b :: rest).take (pre.length + 1) = pre ++ [b] := by
                rw [List.take_length_add_append]; simp
              rw [ht, Bool.or_true]
              exact hinv.cont true [b] (.stop _ b b rest rfl (fun hr => halw hr true hat) (fun hr => halw hr true hat) hbg)
            · rw [if_neg hkept, simplifyAt_at] at he
              cases always with
              | some v =>
                cases v with
                | true =>
                  simp only [getElem?_pre, List.head?_cons] at he
                  simp only [Block.default, Except.ok.injEq, Prod.mk.injEq] at he
                  obtain ⟨rfl, -, rfl⟩ := he
                  have := hinv.cont true [b.default] (.stop _ b b.default rest rfl (fun hr => halw hr true rfl)
                    (fun _ => rfl) (default_good h truth b))
                  simpa [Block.default] using this
                | false =>
                  simp only [getElem?_pre] at he
                  have hk' := hinv.drop hbc fun hr => halw hr false rfl
                  cases rest with
                  | nil =>
                    simp only [List.head?_nil, Except.ok.injEq, Prod.mk.injEq] at he
                    obtain ⟨rfl, -, rfl⟩ := he
                    rw [List.append_nil, hinv.lastPre, Bool.or_self]
                    simpa using hk' false [] (.done _)
                  | cons d rest =>
                    simp only [List.head?_cons] at he
                    cases hdc : d.condition with
                    | none =>
                      simp only [hdc, Except.ok.injEq, Prod.mk.injEq] at he
                      obtain ⟨rfl, -, rfl⟩ := he
                      cases rest with
                      | nil =>
                        have := hk' true [d] (.otherwise _ d hdc)
                        simpa [hdc] using this
                      | cons x xs => exact absurd hdc (hinv.mid' d (by simp))
                    | some dc =>
                      cases hdn : d.negated with
                      | none => simp only [hdc, hdn] at he; cases he
                      | some n =>
                        simp only [hdc, hdn, Option.isSome_some, if_true] at he
                        cases hec : elifCount (pre ++ d :: rest) with
                        | error x => rw [hec] at he; cases he
                        | ok count' =>
                          rw [hec] at he
                          simp only at he
                          exact ih pre (d :: rest) previous count' true bs' made' else' he
                            ⟨hinv.before, fun d hd => hinv.after d (List.mem_cons_of_mem _ hd), hinv.mid', hinv.prev,
                              elifCount_append (fun b hb => (hinv.before b hb).1) hec, hk'⟩
              | none =>
                have hr : r ≠ [] := by simpa using hch
                simp only [if_neg hr, getElem?_pre, List.head?_cons] at he
                simp only [Block.removeOperands, Option.isSome_none, Bool.false_eq_true, if_false] at he
                exact go (b.removeOperands r) _ _ true rfl rfl rfl (removeOperands_good hbg (hrl hr) r)
                  (fun hall => removeOperands_holds hbg hc (hrl hr) (hrv hall hr)) he
          · rw [if_neg hch] at he
            obtain ⟨n, hn, -⟩ := hbg.neg c hc
            simp only [hc, hn] at he
            exact go b c n made rfl hc hn hbg (fun _ => rfl) he
    · rw [if_neg hi] at he
      simp only [Except.ok.injEq, Prod.mk.injEq] at he
      obtain ⟨rfl, -, rfl⟩ := he
      have := hinv.cont _ rest (Simplified.refl (pre.all fun b => !b.holds h) hinv.after hinv.mid)
      cases rest with
      | nil => rw [List.append_nil, hinv.lastPre]; simpa using this
      | cons x xs => rw [getLast?_pre]; simpa using this

theorem immediate_simplified (hs : Sound imp h) {short : ν → Bool} {bs bs' : List (Block α ν)} {made e : Bool}
    (he : immediate imp short bs = .ok (bs', made, e)) (hg : ∀ b ∈ bs, b.Good h truth)
    (hmid : ∀ b ∈ bs.dropLast, b.condition ≠ none) : Simplified h truth true e bs bs' := by
  unfold immediate at he
  cases bs with
  | nil => cases he
  | cons b rest =>
    simp only at he
    cases hn : b.negated with
    | none =>
      rw [hn] at he
      cases hc : elifCount (b :: rest) <;> simp [hc] at he
    | some n =>
      have hbg := hg b (by simp)
      have hbc : b.condition ≠ none := by intro hc; rw [hbg.none hc] at hn; cases hn
      obtain ⟨c, hc⟩ := Option.ne_none_iff_exists'.1 hbc
      rw [hn] at he
      cases hec : elifCount (b :: rest) with
      | error x => rw [hec] at he; cases he
      | ok count =>
        rw [hec] at he
        simp only at he
        cases hl : immediateLoop imp short ((b :: rest).length + 1) (b :: rest) 1 n count false false with
        | error x => rw [hl] at he; cases he
        | ok p =>
          obtain ⟨bs1, made1, else1⟩ := p
          rw [hl] at he
          simp only at he
          have := immediateLoop_simplified hs (orig := b :: rest) (truth := truth) _ [b] rest n count false bs1 made1 else1 hl
            ⟨by simp only [List.mem_singleton]; rintro d rfl; exact ⟨hbc, hbg⟩, fun d hd => hg d (by simp [hd]), ?_, ?_,
              elifCount_append (pre := [b]) (by simp [hbc]) hec, ?_⟩
          · cases hll : bs1.getLast? with
            | none => rw [hll] at he; cases he
            | some d =>
              rw [hll] at he this
              simp only [Except.ok.injEq, Prod.mk.injEq] at he
              obtain ⟨rfl, -, rfl⟩ := he
              simpa using this
          · intro d hd
            cases rest with
            | nil => simp at hd
            | cons x xs => exact hmid d (by simp only [List.dropLast_cons_cons, List.mem_cons]; exact .inr hd)
          · simp [hbg.negated hn]
          · intro e X hX
            exact .keep true e b b c rest X rfl hc hbg (fun _ => rfl) (by simpa using hX)

/-! ### The original statement -/

theorem ofTest_cond {t : Test α ν} {n : Nat} (hf : t.Faithful h truth) {c : Cond α}
    (hc : (Block.ofTest t n).condition = some c) :
    c.eval h = t.truth truth ∧ (Block.ofTest t n).Good h truth ∧
      nodesHold truth (Block.ofTest t n).isOr (Block.ofTest t n).operands = t.truth truth ∧
      (Block.ofTest t n).position = n := by
  cases t with
  | single node c' =>
    simp only [Block.ofTest] at hc ⊢
    subst hc
    have := hf c rfl
    refine ⟨this, ⟨by simp, ?_, ?_, by simp⟩, by simp [nodesHold, Test.truth], trivial⟩
    · simp only [Option.some.injEq]; rintro d rfl; exact ⟨_, rfl, rfl⟩
    · simp only [Option.some.injEq]; rintro d rfl; simpa [nodesHold] using this
  | boolOp isOr operands =>
    cases hs : allSome (operands.map Prod.snd) with
    | none => simp [Block.ofTest, hs] at hc
    | some cs =>
      simp only [Block.ofTest, hs, Option.some.injEq] at hc ⊢
      subst hc
      have hmap : cs.map (Cond.eval h) = operands.map fun o => truth o.1 := by
        have hm := allSome_map _ hs
        clear hs
        induction operands generalizing cs with
        | nil => cases cs with
          | nil => rfl
          | cons => simp at hm
        | cons o os ih =>
          cases cs with
          | nil => simp at hm
          | cons d ds =>
            simp only [List.map_cons, List.cons.injEq] at hm ⊢
            exact ⟨hf o (by simp) d hm.1, ih (fun o ho => hf o (by simp [ho])) ds hm.2⟩
      have ht : (boolOpCond isOr cs).eval h = (Test.boolOp isOr operands : Test α ν).truth truth := by
        rw [eval_boolOpCond]
        cases isOr
        · have := congrArg (List.all · id) hmap
          simpa [List.all_map, Test.truth, Function.comp_def] using this
        · have := congrArg (List.any · id) hmap
          simpa [List.any_map, Test.truth, Function.comp_def] using this
      have hn : nodesHold truth isOr (operands.map Prod.fst) = (Test.boolOp isOr operands : Test α ν).truth truth := by
        cases isOr <;> simp [nodesHold, Test.truth, List.any_map, List.all_map, Function.comp_def]
      refine ⟨ht, ⟨by simp, ?_, ?_, ?_⟩, hn, trivial⟩
      · simp only [Option.some.injEq]; rintro d rfl; exact ⟨_, rfl, rfl⟩
      · simp only [Option.some.injEq]; rintro d rfl; rw [ht, hn]
      · intro _
        refine ⟨by simpa [Function.comp_def] using hmap, fun hor => ?_⟩
        subst hor
        have := congrArg (List.map (!·)) hmap
        simpa [Function.comp_def, Cond.eval] using this

theorem decompose_good : ∀ {ts : List (Test α ν)} {hasElse : Bool} {n : Nat} {bs : List (Block α ν)},
    (∀ t ∈ ts, t.Faithful h truth) → decompose ts hasElse n = some bs →
    (∀ b ∈ bs, b.Good h truth) ∧ (∀ b ∈ bs.dropLast, b.condition ≠ none) ∧ runs h bs = executed truth ts hasElse n
  | [], hasElse, n, bs, hf, hd => by
    simp only [decompose, Option.some.injEq] at hd
    subst hd
    cases hasElse
    · simp [runs, executed]
    · refine ⟨?_, by simp, by simp [runs, executed, Block.holds]⟩
      simp only [if_true, List.mem_singleton]
      rintro b rfl
      exact position_good h truth n
  | t :: ts, hasElse, n, bs, hf, hd => by
    simp only [decompose] at hd
    cases hc : (Block.ofTest t n).condition with
    | none => rw [hc] at hd; cases hd
    | some c =>
      rw [hc] at hd
      cases hr : decompose ts hasElse (n + 1) with
      | none => rw [hr] at hd; cases hd
      | some bs' =>
        rw [hr] at hd
        simp only [Option.some.injEq] at hd
        subst hd
        obtain ⟨hg, hm, hrun⟩ := decompose_good (fun t ht => hf t (by simp [ht])) hr
        obtain ⟨hev, hbg, -, hp⟩ := ofTest_cond (hf t (by simp)) hc
        refine ⟨?_, ?_, ?_⟩
        · intro b hb
          rcases List.mem_cons.1 hb with rfl | hb
          · exact hbg
          · exact hg b hb
        · intro b hb
          cases bs' with
          | nil => simp at hb
          | cons x xs =>
            rw [List.dropLast_cons_cons] at hb
            rcases List.mem_cons.1 hb with rfl | hb
            · simp [hc]
            · exact hm b hb
        · have hh : (Block.ofTest t n).holds h = t.truth truth := by
            unfold Block.holds; rw [hc]; exact hev
          simp only [runs, executed, hh, hp, hrun]

theorem decompose_positions : ∀ {ts : List (Test α ν)} {hasElse : Bool} {n : Nat} {bs : List (Block α ν)},
    decompose ts hasElse n = some bs → ∀ b ∈ bs, n ≤ b.position
  | [], hasElse, n, bs, hd, b, hb => by
    simp only [decompose, Option.some.injEq] at hd
    subst hd
    cases hasElse
    · simp at hb
    · simp at hb; subst hb; simp
  | t :: ts, hasElse, n, bs, hd, b, hb => by
    simp only [decompose] at hd
    cases hc : (Block.ofTest t n).condition with
    | none => rw [hc] at hd; cases hd
    | some c =>
      rw [hc] at hd
      cases hr : decompose ts hasElse (n + 1) with
      | none => rw [hr] at hd; cases hd
      | some bs' =>
        rw [hr] at hd
        simp only [Option.some.injEq] at hd
        subst hd
        rcases List.mem_cons.1 hb with rfl | hb
        · cases t with
          | single => simp [Block.ofTest]
          | boolOp isOr operands =>
            simp only [Block.ofTest]
            cases allSome (operands.map Prod.snd) <;> simp
        · have := decompose_positions hr b hb
          omega

/-! ### The same order -/

/-- None of the tests before branch `n` holds. -/
def Reached (truth : ν → Bool) (ts : List (Test α ν)) (n : Nat) : Prop :=
  ∀ t ∈ ts.take (n - 1), t.truth truth = false

/-- What a report claims. -/
def Report.Right (truth : ν → Bool) (ts : List (Test α ν)) (hasElse : Bool) : Report ν → Prop
  | .reorder order => executedOrder truth order = executed truth ts hasElse 1
  | .alwaysTrue n => ∃ t, ts[n - 1]? = some t ∧ (Reached truth ts n → t.truth truth = true)
  | .redundant n isOr operands => ∃ t, ts[n - 1]? = some t ∧
      (Reached truth ts n → t.truth truth = if isOr then operands.any truth else operands.all truth)
  | .alwaysFalse n => ∃ t, ts[n - 1]? = some t ∧ (Reached truth ts n → t.truth truth = false)
  | .unreachable n => n ≤ (if hasElse then ts.length + 1 else ts.length) ∧ ¬ Reached truth ts n

theorem lastElse_cons {e : Bool} {b : Block α ν} {bs : List (Block α ν)} (hb : bs ≠ []) :
    lastElse e (b :: bs) = b :: lastElse e bs := by
  cases e with
  | false => rfl
  | true =>
    cases bs with
    | nil => exact absurd rfl hb
    | cons x xs =>
      unfold lastElse
      rw [List.getLast?_cons_cons]
      cases hl : (x :: xs).getLast? with
      | none => simp at hl
      | some y => simp

theorem Simplified.ne_nil {r e : Bool} {bs bs' : List (Block α ν)} (hs : Simplified h truth r e bs bs') :
    e = true → bs' ≠ [] := by
  induction hs with
  | done => simp
  | otherwise => simp
  | stop => simp
  | keep => simp
  | drop r e b bs bs' hc hh hs ih => exact ih

theorem Simplified.positions {r e : Bool} {bs bs' : List (Block α ν)} (hs : Simplified h truth r e bs bs') :
    ∀ b' ∈ bs', ∃ b ∈ bs, b.position = b'.position := by
  induction hs with
  | done => simp
  | otherwise r b hc => simp
  | stop r b b' bs hp h1 h2 hg => simp only [List.mem_singleton]; rintro d rfl; exact ⟨b, by simp, hp.symm⟩
  | keep r e b b' c bs bs' hp hc hg hh hs ih =>
    intro d hd
    rcases List.mem_cons.1 hd with rfl | hd
    · exact ⟨b, by simp, hp.symm⟩
    · obtain ⟨x, hx, hxp⟩ := ih d hd
      exact ⟨x, by simp [hx], hxp⟩
  | drop r e b bs bs' hc hh hs ih =>
    intro d hd
    obtain ⟨x, hx, hxp⟩ := ih d hd
    exact ⟨x, by simp [hx], hxp⟩

theorem lastElse_positions {e : Bool} {bs : List (Block α ν)} : ∀ b' ∈ lastElse e bs, ∃ b ∈ bs, b.position = b'.position := by
  intro b' hb
  cases e with
  | false => exact ⟨b', hb, rfl⟩
  | true =>
    unfold lastElse at hb
    cases hl : bs.getLast? with
    | none => rw [hl] at hb; exact ⟨b', hb, rfl⟩
    | some d =>
      rw [hl] at hb
      simp only [List.mem_append, List.mem_singleton] at hb
      rcases hb with hb | rfl
      · exact ⟨b', (List.dropLast_sublist _).subset hb, rfl⟩
      · exact ⟨d, List.mem_of_getLast? hl, rfl⟩

/-- After a branch that is always executed, the others are reported as unreachable. -/
theorem sameOrder_after (pre : List (Test α ν)) : ∀ (ts : List (Test α ν)) (hasElse : Bool),
    (∃ t ∈ pre, t.truth truth = true) → ∀ rep ∈ sameOrder true hasElse ts (pre.length + 1) [],
    rep.Right truth (pre ++ ts) hasElse
  | [], hasElse, ⟨t, ht, htt⟩, rep, hr => by
    cases hasElse with
    | false => simp [sameOrder] at hr
    | true =>
      simp only [sameOrder, and_self, if_true, List.mem_singleton] at hr
      subst hr
      refine ⟨by simp, fun hre => ?_⟩
      have := hre t (by simpa using ht)
      rw [htt] at this
      cases this
  | t' :: ts, hasElse, ⟨t, ht, htt⟩, rep, hr => by
    simp only [sameOrder, if_true] at hr
    rcases List.mem_cons.1 hr with rfl | hr
    · refine ⟨by cases hasElse <;> simp, fun hre => ?_⟩
      have := hre t (by simp [ht])
      rw [htt] at this
      cases this
    · have := sameOrder_after (pre ++ [t']) ts hasElse ⟨t, by simp [ht], htt⟩ rep (by simpa using hr)
      simpa using this

theorem reached_append {pre ts : List (Test α ν)} : Reached truth (pre ++ ts) (pre.length + 1) ↔
    (pre.all fun t => !t.truth truth) = true := by
  unfold Reached
  simp

theorem sameOrder_right : ∀ (ts : List (Test α ν)) (pre : List (Test α ν)) (hasElse e : Bool)
    (bs bs' : List (Block α ν)), decompose ts hasElse (pre.length + 1) = some bs →
    (∀ t ∈ ts, t.Faithful h truth) →
    Simplified h truth (pre.all fun t => !t.truth truth) e bs bs' →
    ∀ rep ∈ sameOrder e hasElse ts (pre.length + 1) (lastElse e bs'), rep.Right truth (pre ++ ts) hasElse
  | [], pre, hasElse, e, bs, bs', hd, hf, hs, rep, hr => by
    simp only [decompose, Option.some.injEq] at hd
    subst hd
    cases hasElse with
    | false => simp [sameOrder] at hr
    | true =>
      exfalso
      simp only [sameOrder, and_true] at hr
      have hne : bs' ≠ [] := by
        intro hb
        subst hb
        simp only [if_true] at hs
        cases hs with
        | drop r e b bs bs' hc hh hs => exact hc rfl
      have : lastElse e bs' ≠ [] := by
        unfold lastElse
        cases e with
        | false => exact hne
        | true =>
          cases hl : bs'.getLast? with
          | none => exact absurd (List.getLast?_eq_none_iff.1 hl) hne
          | some d => simp
      rw [if_neg this] at hr
      simp at hr
  | t :: ts, pre, hasElse, e, bs, bs', hd, hf, hs, rep, hr => by
    simp only [decompose] at hd
    cases hc : (Block.ofTest t (pre.length + 1)).condition with
    | none => rw [hc] at hd; cases hd
    | some c =>
      rw [hc] at hd
      cases hrest : decompose ts hasElse (pre.length + 1 + 1) with
      | none => rw [hrest] at hd; cases hd
      | some rest =>
        rw [hrest] at hd
        simp only [Option.some.injEq] at hd
        subst hd
        obtain ⟨hev, hbg, -, hp⟩ := ofTest_cond (hf t (by simp)) hc
        have hh : (Block.ofTest t (pre.length + 1)).holds h = t.truth truth := by
          unfold Block.holds; rw [hc]; exact hev
        have hget : (pre ++ t :: ts)[pre.length + 1 - 1]? = some t := by simp
        have hlen : (pre ++ [t]).length + 1 = pre.length + 1 + 1 := by simp
        have ih : ∀ bs'', Simplified h truth ((pre.all fun t => !t.truth truth) && !(Block.ofTest t (pre.length + 1)).holds h)
            e rest bs'' → ∀ rep ∈ sameOrder e hasElse ts (pre.length + 1 + 1) (lastElse e bs''),
            rep.Right truth (pre ++ t :: ts) hasElse := by
          intro bs'' hs' rep' hr'
          have := sameOrder_right ts (pre ++ [t]) hasElse e rest bs'' (by rw [hlen]; exact hrest)
            (fun t ht => hf t (by simp [ht])) (by simpa [hh] using hs') rep' (by rw [hlen]; exact hr')
          simpa using this
        generalize hb : Block.ofTest t (pre.length + 1) = b at *
        cases hs with
        | otherwise => rw [hc] at *; contradiction
        | stop r b b' bs hp' h1 h2 hg' =>
          have hl : lastElse true [b'] = [{ b' with condition := none }] := rfl
          rw [hl] at hr
          simp only [sameOrder] at hr
          rw [if_pos (by rw [hp', hp])] at hr
          simp only [Option.isNone_none, if_true, List.singleton_append, List.mem_cons] at hr
          rcases hr with rfl | hr
          · exact ⟨t, hget, fun hre => by rw [← hh]; exact h1 (reached_append.1 hre)⟩
          · have hex : (pre.all fun t => !t.truth truth) = true → t.truth truth = true := fun hre => by rw [← hh]; exact h1 hre
            have hex : ∃ x ∈ pre ++ [t], x.truth truth = true := by
              cases hall : (pre.all fun t => !t.truth truth) with
              | true => exact ⟨t, by simp, hex hall⟩
              | false =>
                simp only [List.all_eq_false] at hall
                obtain ⟨x, hx, hxt⟩ := hall
                exact ⟨x, by simp [hx], by simpa using hxt⟩
            have := sameOrder_after (pre ++ [t]) ts hasElse hex rep (by rw [hlen]; exact hr)
            simpa using this
        | keep r e b b' c' bs bs' hp' hc' hg' hh' hs' =>
          by_cases hlast : e = true ∧ bs' = []
          · exact absurd hlast.2 (hs'.ne_nil hlast.1)
          · have hl : lastElse e (b' :: bs') = b' :: lastElse e bs' := by
              cases e with
              | false => rfl
              | true => exact lastElse_cons (by simpa using hlast)
            rw [hl] at hr
            simp only [sameOrder] at hr
            rw [if_pos (by rw [hp', hp])] at hr
            simp only [hc', Option.isNone_some, Bool.false_eq_true, if_false, List.mem_append] at hr
            rcases hr with hr | hr
            · by_cases hsz : t.size > b'.operands.length
              · rw [if_pos hsz, List.mem_singleton] at hr
                subst hr
                refine ⟨t, hget, fun hre => ?_⟩
                rw [← hh, ← hh' (reached_append.1 hre), holds_nodes hg' hc']
                rfl
              · simp [hsz] at hr
            · exact ih bs' hs' rep hr
        | drop r e b bs bs' hc' hh' hs' =>
          have hr' : rep = .alwaysFalse (pre.length + 1) ∨
              rep ∈ sameOrder e hasElse ts (pre.length + 1 + 1) (lastElse e bs') := by
            cases hl : lastElse e bs' with
            | nil =>
              rw [hl] at hr
              cases e with
              | false => simpa [sameOrder] using hr
              | true =>
                exfalso
                have hne := hs'.ne_nil rfl
                cases hbl : bs'.getLast? with
                | none => exact hne (List.getLast?_eq_none_iff.1 hbl)
                | some d => simp [lastElse, hbl] at hl
            | cons x xs =>
              rw [hl] at hr
              simp only [sameOrder] at hr
              have hx : pre.length + 1 + 1 ≤ x.position := by
                obtain ⟨y, hy, hyp⟩ := lastElse_positions x (by rw [hl]; simp)
                obtain ⟨z, hz, hzp⟩ := hs'.positions y hy
                have := decompose_positions hrest z hz
                omega
              rw [if_neg (by omega)] at hr
              simpa using hr
          rcases hr' with rfl | hr'
          · exact ⟨t, hget, fun hre => by rw [← hh]; exact hh' (reached_append.1 hre)⟩
          · exact ih bs' hs' rep hr'

/-! ### The order changed -/

theorem runs_append (h : α → Bool) : ∀ (pre rest : List (Block α ν)),
    runs h (pre ++ rest) = if pre.all fun b => !b.holds h then runs h rest else runs h pre
  | [], rest => by simp
  | b :: pre, rest => by
    simp only [List.cons_append, runs, runs_append h pre rest, List.all_cons]
    by_cases hb : b.holds h = true
    · simp [hb]
    · simp [Bool.eq_false_iff.2 hb]

theorem runs_congr {h : α → Bool} {pre rest rest' : List (Block α ν)}
    (hr : (pre.all fun b => !b.holds h) = true → runs h rest = runs h rest') :
    runs h (pre ++ rest) = runs h (pre ++ rest') := by
  rw [runs_append, runs_append]
  by_cases hp : (pre.all fun b => !b.holds h) = true
  · rw [if_pos hp, if_pos hp, hr hp]
  · rw [if_neg hp, if_neg hp]

theorem split_two {σ : Type} {bs : List σ} {i j : Nat} {b x : σ} (hi : bs[i]? = some b) (hj : bs[j]? = some x) (hij : i < j) :
    ∃ mid post, bs = bs.take i ++ b :: (mid ++ x :: post) ∧ (bs.take i).length = i ∧ j = i + 1 + mid.length ∧
      (bs.take j).drop i = b :: mid := by
  obtain ⟨hil, hib⟩ := List.getElem?_eq_some_iff.1 hi
  obtain ⟨hjl, hjx⟩ := List.getElem?_eq_some_iff.1 hj
  have h1 : bs.drop i = b :: bs.drop (i + 1) := by rw [← hib]; exact List.drop_eq_getElem_cons hil
  have h2 : bs.drop j = x :: bs.drop (j + 1) := by rw [← hjx]; exact List.drop_eq_getElem_cons hjl
  have h3 : bs.drop (i + 1) = (bs.drop (i + 1)).take (j - (i + 1)) ++ x :: bs.drop (j + 1) := by
    conv_lhs => rw [← List.take_append_drop (j - (i + 1)) (bs.drop (i + 1))]
    rw [List.drop_drop, show i + 1 + (j - (i + 1)) = j by omega, h2]
  refine ⟨(bs.drop (i + 1)).take (j - (i + 1)), bs.drop (j + 1), ?_, by simp; omega, by simp; omega, ?_⟩
  · rw [← h3, ← h1, List.take_append_drop]
  · rw [List.drop_take, h1, show j - i = j - (i + 1) + 1 by omega, List.take_succ_cons]

/-- A block that can be moved before another one, which it simplifies. -/
def Movable (h : α → Bool) (imp : Cond α → Cond α → Bool) (bs : List (Block α ν)) (current block : Nat)
    (always : Option Bool) (r : List Nat) : Prop :=
  ∃ (pre mid post : List (Block α ν)) (b x : Block α ν) (a : Cond α), bs = pre ++ b :: (mid ++ x :: post) ∧
    pre.length = current ∧ block = current + 1 + mid.length ∧ (always.isSome ∨ r ≠ []) ∧
    simplifications imp b a = .ok (always, r) ∧
    a.eval h = ((pre.all fun b => !b.holds h) && !x.holds h) ∧
    ((pre.all fun b => !b.holds h) = true → x.holds h = true → b.holds h = false ∧ (mid.all fun b => !b.holds h) = true)

theorem validMove_right (hs : Sound imp h) {bs : List (Block α ν)} (hg : ∀ b ∈ bs, b.Good h truth) {block goal : Nat}
    {before : Cond α} (hv : validMove imp bs block goal before = .ok true) :
    ∃ x c, bs[block]? = some x ∧ x.condition = some c ∧
      (before.eval h = true → x.holds h = true → (((bs.take block).drop goal).all fun b => !b.holds h) = true) := by
  unfold validMove at hv
  cases hx : bs[block]? with
  | none => rw [hx] at hv; cases hv
  | some x =>
    rw [hx] at hv
    cases hc : x.condition with
    | none => simp [hc] at hv
    | some c =>
      simp only [hc] at hv
      cases hn : allSome (((bs.take block).drop goal).map Block.negated) with
      | none => rw [hn] at hv; cases hv
      | some ns =>
        rw [hn] at hv
        simp only [Except.ok.injEq] at hv
        refine ⟨x, c, rfl, hc, fun hb hxh => ?_⟩
        rw [← allSome_negated (truth := truth) (fun b hb => hg b (List.mem_of_mem_take (List.mem_of_mem_drop hb))) hn]
        refine hs _ _ hv ?_
        have : c.eval h = true := by unfold Block.holds at hxh; rw [hc] at hxh; exact hxh
        simp [Cond.eval, Cond.evalAll, hb, this]

theorem movableFrom_movable (hs : Sound imp h) {bs : List (Block α ν)} (hg : ∀ b ∈ bs, b.Good h truth) {current : Nat}
    {before : Cond α} (hbefore : before.eval h = ((bs.take current).all fun b => !b.holds h)) :
    ∀ (n block block' : Nat) (always : Option Bool) (r : List Nat), current < block →
    movableFrom imp bs current before n block = .ok (some (block', always, r)) → Movable h imp bs current block' always r
  | 0, block, block', always, r, hlt, hm => by simp [movableFrom] at hm
  | n + 1, block, block', always, r, hlt, hm => by
    simp only [movableFrom] at hm
    cases hv : validMove imp bs block current before with
    | error x => rw [hv] at hm; cases hm
    | ok v =>
      rw [hv] at hm
      cases v with
      | false => exact movableFrom_movable hs hg hbefore n _ _ _ _ (by omega) hm
      | true =>
        obtain ⟨x, c, hx, hc, hmove⟩ := validMove_right hs hg hv
        simp only at hm
        cases hb : bs[current]? with
        | none => rw [hb] at hm; cases hm
        | some b =>
          rw [hb, hx] at hm
          simp only [Option.bind_some] at hm
          cases hn : x.negated with
          | none => rw [hn] at hm; cases hm
          | some neg =>
            rw [hn] at hm
            simp only at hm
            cases hsi : simplifications imp b (.and [before, neg]) with
            | error x => rw [hsi] at hm; cases hm
            | ok q =>
              obtain ⟨al, re⟩ := q
              rw [hsi] at hm
              simp only at hm
              by_cases hcond : al.isSome ∨ re ≠ []
              · rw [if_pos hcond] at hm
                simp only [Except.ok.injEq, Option.some.injEq, Prod.mk.injEq] at hm
                obtain ⟨rfl, rfl, rfl⟩ := hm
                obtain ⟨mid, post, hbs, hlen, hblock, htd⟩ := split_two hb hx hlt
                refine ⟨_, mid, post, b, x, _, hbs, hlen, hblock, hcond, hsi, ?_, ?_⟩
                · have := (hg x (List.mem_of_getElem? hx)).negated hn
                  simp [Cond.eval, Cond.evalAll, hbefore, this]
                · intro hp hxh
                  have := hmove (by rw [hbefore]; exact hp) hxh
                  rw [htd] at this
                  simpa using this
              · rw [if_neg hcond] at hm
                exact movableFrom_movable hs hg hbefore n _ _ _ _ (by omega) hm

theorem firstMovable_movable (hs : Sound imp h) {bs : List (Block α ν)} (hg : ∀ b ∈ bs, b.Good h truth)
    {current count block : Nat} {always : Option Bool} {r : List Nat}
    (hm : firstMovable imp bs current count = .ok (some (block, always, r))) : Movable h imp bs current block always r := by
  unfold firstMovable at hm
  cases hn : allSome ((bs.take current).map Block.negated) with
  | none => rw [hn] at hm; cases hm
  | some ns =>
    rw [hn] at hm
    exact movableFrom_movable hs hg (allSome_negated (fun b hb => hg b (List.mem_of_mem_take hb)) hn) _ _ _ _ _
      (by omega) hm

/-- Moving a block and simplifying the one that follows it does not change what is executed. -/
theorem move_runs (hs : Sound imp h) {bs bs1 bs2 : List (Block α ν)} (hg : ∀ b ∈ bs, b.Good h truth)
    {current block : Nat} {always : Option Bool} {r : List Nat} {deleted : Bool}
    (hm : Movable h imp bs current block always r) (h1 : moveBlock bs current block = .ok bs1)
    (h2 : simplifyAt bs1 (current + 1) always r = .ok (bs2, deleted)) :
    (∀ b ∈ bs2, b.Good h truth) ∧ runs h bs2 = runs h bs := by
  obtain ⟨pre, mid, post, b, x, a, rfl, rfl, rfl, hcond, hsi, ha, hmove⟩ := hm
  have hb := hg b (by simp)
  obtain ⟨⟨c, hc⟩, -, hal, hl, hre⟩ := simplifications_right hs hb hsi
  have hget : (pre ++ b :: (mid ++ x :: post))[pre.length + 1 + mid.length]? = some x := by
    rw [List.getElem?_append_right (by omega), show pre.length + 1 + mid.length - pre.length = mid.length + 1 by omega]
    simp
  have herase : (pre ++ b :: (mid ++ x :: post)).eraseIdx (pre.length + 1 + mid.length) = pre ++ b :: (mid ++ post) := by
    rw [List.eraseIdx_append_of_length_le (by omega),
      show pre.length + 1 + mid.length - pre.length = mid.length + 1 by omega, List.eraseIdx_cons_succ,
      List.eraseIdx_append_of_length_le (by omega)]
    simp
  unfold moveBlock at h1
  rw [hget] at h1
  simp only [herase, List.take_left', List.drop_left', Except.ok.injEq] at h1
  subst h1
  have hpre : pre ++ x :: b :: (mid ++ post) = (pre ++ [x]) ++ b :: (mid ++ post) := by simp
  have hlen : pre.length + 1 = (pre ++ [x]).length := by simp
  rw [hpre, hlen, simplifyAt_at] at h2
  -- the block is moved
  have hmoved : ∀ b', ((pre.all fun b => !b.holds h) = true → x.holds h = false → b'.holds h = b.holds h) →
      b'.position = b.position → runs h ((pre ++ [x]) ++ b' :: (mid ++ post)) = runs h (pre ++ b :: (mid ++ x :: post)) := by
    intro b' hb' hbp
    rw [List.append_assoc]
    refine runs_congr fun hp => ?_
    simp only [List.singleton_append, runs]
    cases hxh : x.holds h with
    | true =>
      obtain ⟨hbf, hmf⟩ := hmove hp hxh
      simp [hbf, runs_append, hmf, runs, hxh]
    | false =>
      rw [hb' hp hxh, hbp]
      cases hbh : b.holds h with
      | true => simp
      | false =>
        simp only [Bool.false_eq_true, if_false]
        refine runs_congr fun _ => ?_
        simp [runs, hxh]
  have haa : (pre.all fun b => !b.holds h) = true → x.holds h = false → a.eval h = true := by
    intro hp hx
    rw [ha, hp, hx]
    rfl
  cases always with
  | none =>
    simp only at h2
    have hr : r ≠ [] := by simpa using hcond
    rw [if_neg hr] at h2
    simp only [Except.ok.injEq, Prod.mk.injEq] at h2
    obtain ⟨rfl, rfl⟩ := h2
    refine ⟨?_, hmoved _ (fun hp hx => removeOperands_holds hb hc (hl hr) (hre (haa hp hx) hr)) rfl⟩
    intro d hd
    simp only [List.mem_append, List.mem_cons, List.not_mem_nil, or_false] at hd
    rcases hd with (hd | rfl) | rfl | hd | hd
    · exact hg d (by simp [hd])
    · exact hg d (by simp)
    · exact removeOperands_good hb (hl hr) r
    · exact hg d (by simp [hd])
    · exact hg d (by simp [hd])
  | some v =>
    have hbv : (pre.all fun b => !b.holds h) = true → x.holds h = false → b.holds h = v :=
      fun hp hx => hal (haa hp hx) v rfl
    have h0 := hmoved b (fun _ _ => rfl) rfl
    cases v with
    | true =>
      simp only [Except.ok.injEq, Prod.mk.injEq] at h2
      obtain ⟨rfl, rfl⟩ := h2
      refine ⟨?_, ?_⟩
      · intro d hd
        simp only [List.mem_append, List.mem_cons, List.not_mem_nil, or_false] at hd
        rcases hd with (hd | rfl) | rfl
        · exact hg d (by simp [hd])
        · exact hg d (by simp)
        · exact default_good h truth b
      · rw [← h0]
        refine runs_congr fun hp => ?_
        simp only [List.all_append, List.all_cons, List.all_nil, Bool.and_true, Bool.and_eq_true, Bool.not_eq_true'] at hp
        simp only [runs, hbv hp.1 hp.2, if_true]
        simp [Block.default, Block.holds]
    | false =>
      simp only [Except.ok.injEq, Prod.mk.injEq] at h2
      obtain ⟨rfl, rfl⟩ := h2
      refine ⟨?_, ?_⟩
      · intro d hd
        simp only [List.mem_append, List.mem_cons, List.not_mem_nil, or_false] at hd
        rcases hd with (hd | rfl) | hd | hd
        · exact hg d (by simp [hd])
        · exact hg d (by simp)
        · exact hg d (by simp [hd])
        · exact hg d (by simp [hd])
      · rw [← h0]
        refine runs_congr fun hp => ?_
        simp only [List.all_append, List.all_cons, List.all_nil, Bool.and_true, Bool.and_eq_true, Bool.not_eq_true'] at hp
        simp [runs, hbv hp.1 hp.2]

/-- Moving blocks does not change what is executed. -/
theorem moves_runs (hs : Sound imp h) (e : Bool) : ∀ fuel : Nat,
    (∀ (bs bs' : List (Block α ν)) (count start n : Nat) (made moved : Bool),
      moveUp imp e fuel bs count start n made = .ok (bs', moved) → (∀ b ∈ bs, b.Good h truth) →
      (∀ b ∈ bs', b.Good h truth) ∧ runs h bs' = runs h bs ∧ (made = true → moved = true) ∧ (moved = false → bs' = bs)) ∧
    (∀ (bs bs' : List (Block α ν)) (count count' current block : Nat) (always : Option Bool) (r : List Nat),
      moveMany imp e fuel bs count current (block, always, r) = .ok (bs', count') → (∀ b ∈ bs, b.Good h truth) →
      Movable h imp bs current block always r → (∀ b ∈ bs', b.Good h truth) ∧ runs h bs' = runs h bs)
  | 0 => ⟨fun bs bs' count start n made moved hm => by simp [moveUp] at hm,
      fun bs bs' count count' current block always r hm => by simp [moveMany] at hm⟩
  | fuel + 1 => by
    obtain ⟨ihUp, ihMany⟩ := moves_runs hs e fuel
    constructor
    · intro bs bs' count start n made moved hm hg
      cases n with
      | zero =>
        simp only [moveUp, Except.ok.injEq, Prod.mk.injEq] at hm
        obtain ⟨rfl, rfl⟩ := hm
        exact ⟨hg, rfl, id, fun _ => rfl⟩
      | succ n =>
        simp only [moveUp] at hm
        by_cases hlb : leaveBe bs e (start + n) = true
        · rw [if_pos hlb] at hm
          exact ihUp _ _ _ _ _ _ _ hm hg
        · rw [if_neg hlb] at hm
          cases hf : firstMovable imp bs (start + n) count with
          | error x => rw [hf] at hm; cases hm
          | ok o =>
            rw [hf] at hm
            cases o with
            | none => exact ihUp _ _ _ _ _ _ _ hm hg
            | some m =>
              obtain ⟨block, always, r⟩ := m
              simp only at hm
              cases hmm : moveMany imp e fuel bs count (start + n) (block, always, r) with
              | error x => rw [hmm] at hm; cases hm
              | ok q =>
                obtain ⟨bs1, count1⟩ := q
                rw [hmm] at hm
                simp only at hm
                obtain ⟨hg1, hr1⟩ := ihMany _ _ _ _ _ _ _ _ hmm hg (firstMovable_movable hs hg hf)
                obtain ⟨hg2, hr2, hm2, hm3⟩ := ihUp _ _ _ _ _ _ _ hm hg1
                have := hm2 rfl
                exact ⟨hg2, hr2.trans hr1, fun _ => this, fun hf => by rw [this] at hf; cases hf⟩
    · intro bs bs' count count' current block always r hm hg hmov
      simp only [moveMany] at hm
      cases h1 : moveBlock bs current block with
      | error x => rw [h1] at hm; cases hm
      | ok bs1 =>
        rw [h1] at hm
        simp only at hm
        cases h2 : simplifyAt bs1 (current + 1) always r with
        | error x => rw [h2] at hm; cases hm
        | ok q =>
          obtain ⟨bs2, deleted⟩ := q
          rw [h2] at hm
          simp only at hm
          obtain ⟨hg2, hr2⟩ := move_runs hs hg hmov h1 h2
          cases h3 : (if always.isSome then elifCount bs2 else .ok count) with
          | error x => rw [h3] at hm; cases hm
          | ok count2 =>
            rw [h3] at hm
            simp only at hm
            by_cases hlen : bs2.length = current + 2
            · rw [if_pos hlen] at hm
              simp only [Except.ok.injEq, Prod.mk.injEq] at hm
              obtain ⟨rfl, rfl⟩ := hm
              exact ⟨hg2, hr2⟩
            · rw [if_neg hlen] at hm
              by_cases hdel : deleted = true
              · rw [if_pos hdel] at hm
                cases h4 : moveUp imp e fuel bs2 count2 (current + 1) (block - (current + 1)) false with
                | error x => rw [h4] at hm; cases hm
                | ok q =>
                  obtain ⟨bs3, moved⟩ := q
                  rw [h4] at hm
                  simp only [Except.ok.injEq, Prod.mk.injEq] at hm
                  obtain ⟨rfl, rfl⟩ := hm
                  obtain ⟨hg3, hr3, -⟩ := ihUp _ _ _ _ _ _ _ h4 hg2
                  exact ⟨hg3, hr3.trans hr2⟩
              · rw [if_neg hdel] at hm
                cases h4 : moveUp imp e fuel bs2 count2 (current + 2) (block + 1 - (current + 2)) false with
                | error x => rw [h4] at hm; cases hm
                | ok q =>
                  obtain ⟨bs3, moved⟩ := q
                  rw [h4] at hm
                  simp only at hm
                  obtain ⟨hg3, hr3, -⟩ := ihUp _ _ _ _ _ _ _ h4 hg2
                  cases h5 : firstMovable imp bs3 (current + 1) count2 with
                  | error x => rw [h5] at hm; cases hm
                  | ok o =>
                    rw [h5] at hm
                    cases o with
                    | none =>
                      simp only [Except.ok.injEq, Prod.mk.injEq] at hm
                      obtain ⟨rfl, rfl⟩ := hm
                      exact ⟨hg3, hr3.trans hr2⟩
                    | some m =>
                      obtain ⟨block', always', r'⟩ := m
                      simp only at hm
                      obtain ⟨hg4, hr4⟩ := ihMany _ _ _ _ _ _ _ _ hm hg3 (firstMovable_movable hs hg3 h5)
                      exact ⟨hg4, hr4.trans (hr3.trans hr2)⟩

/-- An `else` that is written as a comparison is executed as before. -/
theorem convertElse_runs (hs : Sound imp h) {simple : List (Cond α × ν)} {bs bs' : List (Block α ν)}
    (hsimple : ∀ s ∈ simple, s.1.eval h = truth s.2) (hg : ∀ b ∈ bs, b.Good h truth)
    (hlast : ∀ b, bs.getLast? = some b → b.condition = none) (he : convertElse imp simple bs = .ok bs') :
    (∀ b ∈ bs', b.Good h truth) ∧ runs h bs' = runs h bs ∧
    (bs' = bs ∨ ∃ pre b b', bs = pre ++ [b] ∧ bs' = pre ++ [b'] ∧ b'.position = b.position) := by
  unfold convertElse at he
  by_cases hse : simple = []
  · rw [if_pos hse] at he
    cases he
    exact ⟨hg, rfl, .inl rfl⟩
  · rw [if_neg hse] at he
    cases hb : bs.getLast? with
    | none => simp [hb] at he
    | some b =>
      have hbs : bs = bs.dropLast ++ [b] := (List.dropLast_append_getLast? b hb).symm
      have hpre : ∀ d ∈ bs.dropLast, d.Good h truth := fun d hd => hg d ((List.dropLast_sublist _).subset hd)
      cases hn : allSome (bs.dropLast.map Block.negated) with
      | none => simp only [hb, hn] at he; cases he
      | some ns =>
        simp only [hb, hn] at he
        have hall := allSome_negated hpre hn
        cases hf : simple.find? fun s => imp (.and ns) s.1 && imp s.1 (.and ns) with
        | none => rw [hf] at he; cases he; exact ⟨hg, rfl, .inl rfl⟩
        | some s =>
          rw [hf] at he
          simp only [Except.ok.injEq] at he
          have hsp := List.find?_some hf
          simp only [Bool.and_eq_true] at hsp
          have hseval := hsimple s (List.mem_of_find?_eq_some hf)
          subst he
          refine ⟨?_, ?_, .inr ⟨_, b, _, hbs, rfl, rfl⟩⟩
          · intro d hd
            simp only [List.mem_append, List.mem_singleton] at hd
            rcases hd with hd | rfl
            · exact hpre d hd
            · refine ⟨by simp, ?_, ?_, by simp⟩
              · simp only [Option.some.injEq]; rintro c rfl; exact ⟨_, rfl, rfl⟩
              · simp only [Option.some.injEq]
                rintro c rfl
                rw [hseval]
                cases b.isOr <;> simp [nodesHold]
          · conv_rhs => rw [hbs]
            refine runs_congr fun hp => ?_
            have : s.1.eval h = true := hs _ _ hsp.1 (hall.trans hp)
            simp [runs, Block.holds, hlast b hb, this]

/-- If some branch is always executed, the last one can be `else`. -/
theorem lastElse_order {e : Bool} : ∀ {bs : List (Block α ν)}, (∀ b ∈ bs, b.Good h truth) → (e = true → runs h bs ≠ none) →
    executedOrder truth ((lastElse e bs).map fun b => (b.position, b.condition.map fun _ => (b.isOr, b.operands))) = runs h bs
  | [], _, _ => by cases e <;> simp [lastElse, executedOrder, runs]
  | b :: bs, hg, he => by
    have hstep : ∀ xs : List (Block α ν), executedOrder truth
        (((b :: xs).map fun b => (b.position, b.condition.map fun _ => (b.isOr, b.operands)))) =
        if b.holds h then some b.position else
          executedOrder truth (xs.map fun b => (b.position, b.condition.map fun _ => (b.isOr, b.operands))) := by
      intro xs
      simp only [List.map_cons]
      cases hc : b.condition with
      | none => simp [executedOrder, Block.holds, hc]
      | some c =>
        rw [holds_nodes (hg b (by simp)) hc]
        cases hor : b.isOr <;> simp [executedOrder, nodesHold]
    by_cases hlast : bs = []
    · subst hlast
      cases e with
      | false =>
        have : lastElse false [b] = [b] := rfl
        rw [this, hstep]
        simp [executedOrder, runs]
      | true =>
        have hl : lastElse true [b] = [{ b with condition := none }] := rfl
        rw [hl]
        have := he rfl
        simp only [runs] at this ⊢
        by_cases hb : b.holds h = true
        · simp [executedOrder, hb]
        · simp [hb] at this
    · rw [lastElse_cons hlast, hstep]
      simp only [runs]
      by_cases hb : b.holds h = true
      · simp [hb]
      · rw [if_neg hb, if_neg hb]
        refine lastElse_order (fun d hd => hg d (by simp [hd])) fun he' => ?_
        have := he he'
        simp only [runs, if_neg hb] at this
        exact this

/-- The last block matters only by its position once it is `else`. -/
theorem sameOrder_last {l hasElse : Bool} {b b' : Block α ν} (hp : b'.position = b.position) : ∀ (ts : List (Test α ν)) (n : Nat)
    (pre : List (Block α ν)),
    sameOrder l hasElse ts n (pre ++ [{ b' with condition := none }]) = sameOrder l hasElse ts n (pre ++ [{ b with condition := none }])
  | [], n, pre => by simp [sameOrder]
  | t :: ts, n, [] => by
    simp only [List.nil_append, sameOrder]
    have := sameOrder_last (l := l) (hasElse := hasElse) hp ts (n + 1) []
    simp only [List.nil_append] at this
    rw [this, hp]
    simp
  | t :: ts, n, x :: pre => by
    simp only [List.cons_append, sameOrder]
    rw [sameOrder_last hp ts (n + 1) pre]
    have := sameOrder_last (l := l) (hasElse := hasElse) hp ts (n + 1) (x :: pre)
    simp only [List.cons_append] at this
    rw [this]

theorem lastElse_last {h : α → Bool} {truth : ν → Bool} {e : Bool} {bs bs' : List (Block α ν)}
    (hs : Simplified h truth true e bs bs') :
    ((lastElse e bs').getLast?.any fun b => b.condition.isNone) = e := by
  cases e with
  | true =>
    have hne := hs.ne_nil rfl
    unfold lastElse
    cases hl : bs'.getLast? with
    | none => exact absurd (List.getLast?_eq_none_iff.1 hl) hne
    | some d => simp
  | false =>
    have := hs.last rfl
    unfold lastElse
    cases hl : bs'.getLast? with
    | none => rfl
    | some d => simpa [Option.isSome_iff_ne_none] using this d hl

/-- **C63** and **C64**: whatever is reported is right. -/
theorem reports_right (hs : Sound imp h) {short : ν → Bool} {simple : List (Cond α × ν)} {skip : Bool}
    {ts : List (Test α ν)} {hasElse : Bool} {reports : List (Report ν)}
    (hf : ∀ t ∈ ts, t.Faithful h truth) (hsimple : ∀ s ∈ simple, s.1.eval h = truth s.2)
    (hc : checkIf imp short simple skip ts hasElse = .ok reports) :
    ∀ rep ∈ reports, rep.Right truth ts hasElse := by
  unfold checkIf at hc
  cases hd : decompose ts hasElse 1 with
  | none => rw [hd] at hc; cases hc; simp
  | some bs =>
    obtain ⟨hg, hmid, hrun⟩ := decompose_good hf hd
    cases bs with
    | nil => rw [hd] at hc; cases hc; simp
    | cons b0 rest =>
      rw [hd] at hc
      simp only at hc
      generalize hb0 : b0 :: rest = bs at hc hd hg hmid hrun
      cases hi : immediate imp short bs with
      | error x => rw [hi] at hc; cases hc
      | ok q =>
        obtain ⟨bs1, made, e⟩ := q
        rw [hi] at hc
        simp only at hc
        have hsim := immediate_simplified hs hi hg hmid
        have hg1 := hsim.good hg
        have hlast := lastElse_last hsim
        have hsame : ∀ rep ∈ (if made then sameOrder e hasElse ts 1 (lastElse e bs1) else []), rep.Right truth ts hasElse := by
          intro rep hrep
          cases made with
          | false => simp at hrep
          | true =>
            have := sameOrder_right ts [] hasElse e bs bs1 hd hf (by simpa using hsim) rep (by simpa using hrep)
            simpa using this
        cases skip with
        | true =>
          simp only [if_true, Except.ok.injEq] at hc
          rw [hlast] at hc
          subst hc
          exact hsame
        | false =>
          simp only [Bool.false_eq_true, if_false] at hc
          cases hce : (if bs1.getLast?.any (fun b => b.condition.isNone) then convertElse imp simple bs1 else .ok bs1) with
          | error x => rw [hce] at hc; cases hc
          | ok bs2 =>
            rw [hce] at hc
            simp only at hc
            have hconv : (∀ b ∈ bs2, b.Good h truth) ∧ runs h bs2 = runs h bs1 ∧
                (bs2 = bs1 ∨ (e = true ∧ ∃ pre b b', bs1 = pre ++ [b] ∧ bs2 = pre ++ [b'] ∧ b'.position = b.position)) := by
              by_cases hn : bs1.getLast?.any (fun b => b.condition.isNone) = true
              · rw [if_pos hn] at hce
                have hnone : ∀ b, bs1.getLast? = some b → b.condition = none := by
                  intro b hb
                  rw [hb] at hn
                  simpa [Option.isNone_iff_eq_none] using hn
                obtain ⟨h1, h2, h3⟩ := convertElse_runs hs hsimple hg1 hnone hce
                refine ⟨h1, h2, h3.imp id fun h3 => ⟨?_, h3⟩⟩
                cases e with
                | true => rfl
                | false =>
                  obtain ⟨pre, b, b', rfl, -⟩ := h3
                  exact absurd (hnone b (by simp)) (hsim.last rfl b (by simp))
              · rw [if_neg hn] at hce
                cases hce
                exact ⟨hg1, rfl, .inl rfl⟩
            obtain ⟨hg2, hr2, heq⟩ := hconv
            cases hec : elifCount bs2 with
            | error x => rw [hec] at hc; cases hc
            | ok count =>
              rw [hec] at hc
              simp only at hc
              cases hmu : moveUp imp e ((bs2.length + 3) ^ 2) bs2 count 0 (count - 1) false with
              | error x => rw [hmu] at hc; cases hc
              | ok q =>
                obtain ⟨bs3, moved⟩ := q
                rw [hmu] at hc
                simp only [Except.ok.injEq] at hc
                obtain ⟨hg3, hr3, -, hm3⟩ := (moves_runs (truth := truth) hs e _).1 _ _ _ _ _ _ _ hmu hg2
                cases moved with
                | true =>
                  simp only [if_true] at hc
                  subst hc
                  intro rep hrep
                  rw [List.mem_singleton] at hrep
                  subst hrep
                  have hrr : runs h bs3 = runs h bs1 := hr3.trans hr2
                  show executedOrder truth _ = _
                  rw [← hrun, ← hsim.runs rfl, ← hrr]
                  exact lastElse_order hg3 fun he => by rw [hrr]; exact hsim.exhaustive rfl he
                | false =>
                  have hb3 := hm3 rfl
                  subst hb3
                  simp only [Bool.false_eq_true, if_false] at hc
                  rcases heq with rfl | ⟨rfl, pre, b, b', rfl, rfl, hp⟩
                  · rw [hlast] at hc
                    subst hc
                    exact hsame
                  · have hl : ∀ x : Block α ν, lastElse true (pre ++ [x]) = pre ++ [{ x with condition := none }] := by
                      intro x; simp [lastElse]
                    rw [hl, sameOrder_last hp] at hc
                    rw [hl] at hsame
                    simp only [List.getLast?_append_cons, List.getLast?_singleton, Option.any_some, Option.isNone_none] at hc
                    subst hc
                    exact hsame

/-! ### Exceptions -/

theorem simplifications_fuel {b : Block α ν} {a : Cond α} : simplifications imp b a ≠ .error .recursionError := by
  intro he
  unfold simplifications at he
  cases hc : b.condition with
  | none => rw [hc] at he; cases he
  | some c =>
    cases hn : b.negated with
    | none => rw [hc, hn] at he; cases he
    | some n =>
      rw [hc, hn] at he
      simp only at he
      repeat' split at he
      all_goals cases he

theorem simplifyAt_fuel {bs : List (Block α ν)} {i : Nat} {always : Option Bool} {r : List Nat} :
    simplifyAt bs i always r ≠ .error .recursionError := by
  intro he
  unfold simplifyAt at he
  repeat' split at he
  all_goals cases he

theorem simplifyAt_length {bs bs' : List (Block α ν)} {i : Nat} {always : Option Bool} {r : List Nat} {d : Bool}
    (he : simplifyAt bs i always r = .ok (bs', d)) : bs'.length ≤ bs.length := by
  unfold simplifyAt at he
  cases always with
  | none =>
    simp only at he
    by_cases hr : r = []
    · rw [if_pos hr] at he; cases he; omega
    · rw [if_neg hr] at he
      cases hb : bs[i]? with
      | none => rw [hb] at he; cases he
      | some b => rw [hb] at he; cases he; simp
  | some v =>
    cases v with
    | false =>
      cases he
      exact List.length_eraseIdx_le bs i
    | true =>
      simp only at he
      cases hb : bs[i]? with
      | none => rw [hb] at he; cases he
      | some b =>
        rw [hb] at he
        cases he
        have := (List.getElem?_eq_some_iff.1 hb).1
        simp
        omega

theorem moveBlock_length {bs bs' : List (Block α ν)} {goal block : Nat} (he : moveBlock bs goal block = .ok bs') :
    bs'.length = bs.length := by
  unfold moveBlock at he
  cases hb : bs[block]? with
  | none => rw [hb] at he; cases he
  | some b =>
    rw [hb] at he
    cases he
    have := (List.getElem?_eq_some_iff.1 hb).1
    rw [List.length_append, List.length_cons, List.length_take, List.length_drop, List.length_eraseIdx_of_lt this]
    omega

theorem elifCount_fuel {bs : List (Block α ν)} : elifCount bs ≠ .error .recursionError := by
  unfold elifCount
  cases bs.getLast? <;> simp

theorem elifCount_le {bs : List (Block α ν)} {n : Nat} (he : elifCount bs = .ok n) : n ≤ bs.length := by
  unfold elifCount at he
  cases hl : bs.getLast? with
  | none => rw [hl] at he; cases he
  | some b =>
    rw [hl] at he
    simp only [Except.ok.injEq] at he
    by_cases hn : b.condition.isNone = true <;> simp [hn] at he <;> omega

theorem movableFrom_fuel {bs : List (Block α ν)} {current : Nat} {before : Cond α} : ∀ (n block : Nat),
    movableFrom imp bs current before n block ≠ .error .recursionError
  | 0, block, he => by simp [movableFrom] at he
  | n + 1, block, he => by
    simp only [movableFrom] at he
    cases hv : validMove imp bs block current before with
    | error x =>
      rw [hv] at he
      simp only [Except.error.injEq] at he
      subst he
      unfold validMove at hv
      repeat' split at hv
      all_goals cases hv
    | ok v =>
      rw [hv] at he
      cases v with
      | false => exact movableFrom_fuel n _ he
      | true =>
        simp only at he
        cases hb : bs[current]? with
        | none => rw [hb] at he; cases he
        | some b =>
          rw [hb] at he
          cases hn : (bs[block]?).bind Block.negated with
          | none => rw [hn] at he; cases he
          | some neg =>
            rw [hn] at he
            simp only at he
            cases hsi : simplifications imp b (.and [before, neg]) with
            | error x =>
              rw [hsi] at he
              simp only [Except.error.injEq] at he
              subst he
              exact simplifications_fuel hsi
            | ok q =>
              obtain ⟨al, re⟩ := q
              rw [hsi] at he
              simp only at he
              by_cases hcond : al.isSome ∨ re ≠ []
              · rw [if_pos hcond] at he; cases he
              · rw [if_neg hcond] at he; exact movableFrom_fuel n _ he

theorem firstMovable_fuel {bs : List (Block α ν)} {current count : Nat} :
    firstMovable imp bs current count ≠ .error .recursionError := by
  intro he
  unfold firstMovable at he
  cases hn : allSome ((bs.take current).map Block.negated) with
  | none => rw [hn] at he; cases he
  | some ns => rw [hn] at he; exact movableFrom_fuel _ _ he

theorem movableFrom_lt {bs : List (Block α ν)} {current : Nat} {before : Cond α} : ∀ (n block block' : Nat)
    (always : Option Bool) (r : List Nat), current < block →
    movableFrom imp bs current before n block = .ok (some (block', always, r)) → current < block' ∧ block' < bs.length
  | 0, block, _, _, _, _, he => by simp [movableFrom] at he
  | n + 1, block, block', always, r, hlt, he => by
    simp only [movableFrom] at he
    cases hv : validMove imp bs block current before with
    | error x => rw [hv] at he; cases he
    | ok v =>
      rw [hv] at he
      cases v with
      | false => exact movableFrom_lt n _ _ _ _ (by omega) he
      | true =>
        simp only at he
        cases hb : bs[current]? with
        | none => rw [hb] at he; cases he
        | some b =>
          rw [hb] at he
          cases hx : bs[block]? with
          | none => rw [hx] at he; cases he
          | some x =>
            rw [hx] at he
            cases hn : x.negated with
            | none => simp [hn] at he
            | some neg =>
              simp only [Option.bind_some, hn] at he
              cases hsi : simplifications imp b (.and [before, neg]) with
              | error x => rw [hsi] at he; cases he
              | ok q =>
                obtain ⟨al, re⟩ := q
                rw [hsi] at he
                simp only at he
                by_cases hcond : al.isSome ∨ re ≠ []
                · rw [if_pos hcond] at he
                  simp only [Except.ok.injEq, Option.some.injEq, Prod.mk.injEq] at he
                  obtain ⟨rfl, -, -⟩ := he
                  exact ⟨hlt, (List.getElem?_eq_some_iff.1 hx).1⟩
                · rw [if_neg hcond] at he
                  exact movableFrom_lt n _ _ _ _ (by omega) he

theorem firstMovable_lt {bs : List (Block α ν)} {current count block' : Nat} {always : Option Bool} {r : List Nat}
    (he : firstMovable imp bs current count = .ok (some (block', always, r))) : current < block' ∧ block' < bs.length := by
  unfold firstMovable at he
  cases hn : allSome ((bs.take current).map Block.negated) with
  | none => rw [hn] at he; cases he
  | some ns => rw [hn] at he; exact movableFrom_lt _ _ _ _ _ (by omega) he

/-- The fuel is enough for moving blocks, and no blocks are added. -/
theorem moves_fuel (e : Bool) (L : Nat) : ∀ fuel : Nat,
    (∀ (k : Nat) (bs : List (Block α ν)) (count start n : Nat) (made : Bool), bs.length ≤ L → start + n ≤ L → L ≤ start + k →
      k * (L + 3) + n + 1 ≤ fuel → moveUp imp e fuel bs count start n made ≠ .error .recursionError ∧
      ∀ bs' m, moveUp imp e fuel bs count start n made = .ok (bs', m) → bs'.length ≤ bs.length) ∧
    (∀ (k : Nat) (bs : List (Block α ν)) (count current block : Nat) (always : Option Bool) (r : List Nat), bs.length ≤ L →
      current < block → block < bs.length → L ≤ current + k → k * (L + 3) ≤ fuel →
      moveMany imp e fuel bs count current (block, always, r) ≠ .error .recursionError ∧
      ∀ bs' c, moveMany imp e fuel bs count current (block, always, r) = .ok (bs', c) → bs'.length ≤ bs.length)
  | 0 => by
    refine ⟨fun k bs count start n made _ _ _ hk => by omega, ?_⟩
    intro k bs count current block always r hL hcb hb hk hf
    cases k with
    | zero => omega
    | succ k => rw [Nat.succ_mul] at hf; omega
  | fuel + 1 => by
    obtain ⟨ihUp, ihMany⟩ := moves_fuel e L fuel
    constructor
    · intro k bs count start n made hL hn hk hf
      cases n with
      | zero =>
        simp only [moveUp]
        refine ⟨by simp, fun bs' m hm => ?_⟩
        cases hm
        omega
      | succ n =>
        simp only [moveUp]
        by_cases hlb : leaveBe bs e (start + n) = true
        · rw [if_pos hlb]
          exact ihUp k _ _ _ _ _ hL (by omega) hk (by omega)
        · rw [if_neg hlb]
          cases hfm : firstMovable imp bs (start + n) count with
          | error x =>
            refine ⟨fun he => ?_, by simp⟩
            cases he
            exact firstMovable_fuel hfm
          | ok o =>
            cases o with
            | none => exact ihUp k _ _ _ _ _ hL (by omega) hk (by omega)
            | some m =>
              obtain ⟨block, always, r⟩ := m
              simp only
              have hlt := firstMovable_lt hfm
              obtain ⟨h1, h2⟩ := ihMany k bs count (start + n) block always r hL hlt.1 hlt.2 (by omega) (by omega)
              cases hmm : moveMany imp e fuel bs count (start + n) (block, always, r) with
              | error x =>
                refine ⟨fun he => ?_, by simp⟩
                cases he
                exact h1 hmm
              | ok q =>
                obtain ⟨bs1, count1⟩ := q
                simp only
                have hl1 := h2 _ _ hmm
                obtain ⟨h3, h4⟩ := ihUp k bs1 count1 start n true (by omega) (by omega) hk (by omega)
                exact ⟨h3, fun bs' m hm => Nat.le_trans (h4 _ _ hm) hl1⟩
    · intro k bs count current block always r hL hcb hb hk hf
      cases k with
      | zero => omega
      | succ k =>
        rw [Nat.succ_mul] at hf
        simp only [moveMany]
        cases h1 : moveBlock bs current block with
        | error x =>
          refine ⟨fun he => ?_, by simp⟩
          cases he
          unfold moveBlock at h1
          split at h1 <;> cases h1
        | ok bs1 =>
          simp only
          have hl1 := moveBlock_length h1
          cases h2 : simplifyAt bs1 (current + 1) always r with
          | error x =>
            refine ⟨fun he => ?_, by simp⟩
            cases he
            exact simplifyAt_fuel h2
          | ok q =>
            obtain ⟨bs2, deleted⟩ := q
            simp only
            have hl2 := simplifyAt_length h2
            cases h3 : (if always.isSome then elifCount bs2 else .ok count) with
            | error x =>
              refine ⟨fun he => ?_, by simp⟩
              cases he
              split at h3
              · exact elifCount_fuel h3
              · cases h3
            | ok count2 =>
              simp only
              by_cases hlen : bs2.length = current + 2
              · rw [if_pos hlen]
                refine ⟨by simp, fun bs' c hm => ?_⟩
                cases hm
                omega
              · rw [if_neg hlen]
                by_cases hdel : deleted = true
                · rw [if_pos hdel]
                  obtain ⟨h5, h6⟩ := ihUp k bs2 count2 (current + 1) (block - (current + 1)) false (by omega) (by omega)
                    (by omega) (by omega)
                  cases h4 : moveUp imp e fuel bs2 count2 (current + 1) (block - (current + 1)) false with
                  | error x =>
                    refine ⟨fun he => ?_, by simp⟩
                    cases he
                    exact h5 h4
                  | ok q =>
                    obtain ⟨bs3, moved⟩ := q
                    refine ⟨by simp, fun bs' c hm => ?_⟩
                    cases hm
                    have := h6 _ _ h4
                    omega
                · rw [if_neg hdel]
                  obtain ⟨h5, h6⟩ := ihUp k bs2 count2 (current + 2) (block + 1 - (current + 2)) false (by omega) (by omega)
                    (by omega) (by omega)
                  cases h4 : moveUp imp e fuel bs2 count2 (current + 2) (block + 1 - (current + 2)) false with
                  | error x =>
                    refine ⟨fun he => ?_, by simp⟩
                    cases he
                    exact h5 h4
                  | ok q =>
                    obtain ⟨bs3, moved⟩ := q
                    have hl3 := h6 _ _ h4
                    simp only
                    cases h7 : firstMovable imp bs3 (current + 1) count2 with
                    | error x =>
                      refine ⟨fun he => ?_, by simp⟩
                      cases he
                      exact firstMovable_fuel h7
                    | ok o =>
                      cases o with
                      | none =>
                        refine ⟨by simp, fun bs' c hm => ?_⟩
                        cases hm
                        omega
                      | some m =>
                        obtain ⟨block', always', r'⟩ := m
                        simp only
                        have hlt := firstMovable_lt h7
                        obtain ⟨h8, h9⟩ := ihMany k bs3 count2 (current + 1) block' always' r' (by omega) hlt.1 hlt.2
                          (by omega) (by omega)
                        exact ⟨h8, fun bs' c hm => by have := h9 _ _ hm; omega⟩

/-- What `immediateLoop` relies on. -/
structure Shape (bs : List (Block α ν)) : Prop where
  neg : ∀ b ∈ bs, b.condition ≠ none → b.negated ≠ none
  mid : ∀ b ∈ bs.dropLast, b.condition ≠ none

theorem Shape.at {bs : List (Block α ν)} (hs : Shape bs) {i count : Nat} (hc : elifCount bs = .ok count) (hi : i < count) :
    ∃ b c n, bs[i]? = some b ∧ b.condition = some c ∧ b.negated = some n := by
  have hle := elifCount_le hc
  have hb : bs[i]? = some bs[i] := List.getElem?_eq_getElem (by omega)
  have hcond : bs[i].condition ≠ none := by
    by_cases hl : i + 1 = bs.length
    · unfold elifCount at hc
      have hgl : bs.getLast? = some bs[i] := by rw [List.getLast?_eq_getElem?, show bs.length - 1 = i by omega, hb]
      rw [hgl] at hc
      intro hn
      simp [hn] at hc
      omega
    · have : i < bs.dropLast.length := by simp; omega
      refine hs.mid _ ?_
      have h2 : bs.dropLast[i] = bs[i] := by simp
      rw [← h2]
      exact List.getElem_mem this
  obtain ⟨c, hc'⟩ := Option.ne_none_iff_exists'.1 hcond
  obtain ⟨n, hn⟩ := Option.ne_none_iff_exists'.1 (hs.neg _ (List.getElem_mem _) hcond)
  exact ⟨_, c, n, hb, hc', hn⟩

theorem dropLast_append_cons {σ : Type} (pre : List σ) (b : σ) (post : List σ) :
    (pre ++ b :: post).dropLast = pre ++ (b :: post).dropLast := by
  rw [List.dropLast_append_of_ne_nil (by simp)]

theorem Shape.erase {pre post : List (Block α ν)} {b : Block α ν} (hs : Shape (pre ++ b :: post)) : Shape (pre ++ post) := by
  refine ⟨fun d hd => hs.neg d ?_, fun d hd => hs.mid d ?_⟩
  · simp only [List.mem_append, List.mem_cons] at hd ⊢
    rcases hd with hd | hd
    · exact .inl hd
    · exact .inr (.inr hd)
  · rw [dropLast_append_cons]
    cases post with
    | nil =>
      rw [List.append_nil] at hd
      simp [(List.dropLast_sublist _).subset hd]
    | cons x xs =>
      rw [dropLast_append_cons] at hd
      simp only [List.dropLast_cons_cons, List.mem_append, List.mem_cons] at hd ⊢
      rcases hd with hd | hd
      · exact .inl hd
      · exact .inr (.inr hd)

theorem Shape.replace {pre post : List (Block α ν)} {b b' : Block α ν} (hs : Shape (pre ++ b :: post))
    (hc : b'.condition ≠ none) (hn : b'.negated ≠ none) : Shape (pre ++ b' :: post) := by
  refine ⟨fun d hd => ?_, fun d hd => ?_⟩
  · simp only [List.mem_append, List.mem_cons] at hd
    rcases hd with hd | rfl | hd
    · exact hs.neg d (by simp [hd])
    · exact fun _ => hn
    · exact hs.neg d (by simp [hd])
  · rw [dropLast_append_cons] at hd
    cases post with
    | nil =>
      simp only [List.dropLast_singleton, List.append_nil] at hd
      exact hs.mid d (by rw [dropLast_append_cons]; simp [hd])
    | cons x xs =>
      simp only [List.dropLast_cons_cons, List.mem_append, List.mem_cons] at hd
      rcases hd with hd | rfl | hd
      · exact hs.mid d (by rw [dropLast_append_cons]; simp [hd])
      · exact hc
      · refine hs.mid d ?_
        rw [dropLast_append_cons]
        simp only [List.dropLast_cons_cons, List.mem_append, List.mem_cons]
        exact .inr (.inr hd)

theorem elifCount_replace {pre post : List (Block α ν)} {b b' : Block α ν} (hc : b.condition ≠ none)
    (hc' : b'.condition ≠ none) : elifCount (pre ++ b' :: post) = elifCount (pre ++ b :: post) := by
  unfold elifCount
  cases post with
  | nil =>
    obtain ⟨c, hc⟩ := Option.ne_none_iff_exists'.1 hc
    obtain ⟨c', hc'⟩ := Option.ne_none_iff_exists'.1 hc'
    simp [hc, hc']
  | cons x xs =>
    have : ∀ y : Block α ν, (pre ++ y :: x :: xs).getLast? = (x :: xs).getLast? := by
      intro y
      rw [getLast?_pre, List.getLast?_cons_cons]
    rw [this, this]
    simp

theorem elifCount_ok {bs : List (Block α ν)} (hne : bs ≠ []) : ∃ n, elifCount bs = .ok n := by
  unfold elifCount
  cases hl : bs.getLast? with
  | none => exact absurd (List.getLast?_eq_none_iff.1 hl) hne
  | some b => exact ⟨_, rfl⟩

theorem simplifications_ok {b : Block α ν} {a c n : Cond α} (hc : b.condition = some c) (hn : b.negated = some n) :
    ∃ q, simplifications imp b a = .ok q := by
  unfold simplifications
  rw [hc, hn]
  simp only
  repeat' split
  all_goals exact ⟨_, rfl⟩

theorem immediateLoop_ok {short : ν → Bool} : ∀ (fuel : Nat) (bs : List (Block α ν)) (i count : Nat) (previous : Cond α)
    (made e : Bool), Shape bs → elifCount bs = .ok count → 1 ≤ i → i ≤ bs.length → bs.length < fuel + i →
    ∃ bs' made' e', immediateLoop imp short fuel bs i previous count made e = .ok (bs', made', e') ∧ bs' ≠ []
  | 0, bs, i, count, previous, made, e, hs, hc, hi, hil, hf => by omega
  | fuel + 1, bs, i, count, previous, made, e, hs, hc, hi, hile, hf => by
    simp only [immediateLoop]
    have hne : bs ≠ [] := by
      rintro rfl
      simp [elifCount] at hc
    by_cases hlt : i < count
    · rw [if_pos hlt]
      obtain ⟨b, c, n, hb, hbc, hbn⟩ := hs.at hc hlt
      obtain ⟨⟨always, r⟩, hq⟩ := simplifications_ok (imp := imp) (a := previous) hbc hbn
      simp only [hb, hq]
      by_cases hcond : always.isSome ∨ r ≠ []
      · rw [if_pos hcond]
        by_cases hk : kept short always b = true
        · rw [if_pos hk]
          exact ⟨_, _, _, rfl, by simp [hne]⟩
        · rw [if_neg hk]
          obtain ⟨hil, hib⟩ := List.getElem?_eq_some_iff.1 hb
          have hsplit : bs = bs.take i ++ b :: bs.drop (i + 1) := by
            rw [← hib, ← List.drop_eq_getElem_cons hil, List.take_append_drop]
          have hlen : (bs.take i).length = i := by simp; omega
          generalize bs.take i = pre at hsplit hlen
          generalize bs.drop (i + 1) = post at hsplit
          subst hsplit
          subst hlen
          have hpre : pre ≠ [] := by rintro rfl; simp at hi
          rw [simplifyAt_at]
          cases always with
          | none =>
            have hr : r ≠ [] := by simpa using hcond
            simp only [if_neg hr, getElem?_pre, List.head?_cons]
            simp only [Block.removeOperands, Option.isSome_none, Bool.false_eq_true, if_false]
            refine immediateLoop_ok fuel _ _ _ _ _ _ (hs.replace (by simp) (by simp)) ?_ (by omega) ?_ ?_
            · rw [← hc]
              exact elifCount_replace (by simp [hbc]) (by simp)
            · simp
            · simp only [List.length_append, List.length_cons] at hf ⊢
              omega
          | some v =>
            cases v with
            | true =>
              simp only [getElem?_pre, List.head?_cons, Block.default]
              exact ⟨_, _, _, rfl, by simp⟩
            | false =>
              simp only [getElem?_pre]
              cases post with
              | nil => exact ⟨_, _, _, rfl, by simp [hpre]⟩
              | cons x xs =>
                simp only [List.head?_cons]
                have hs' := hs.erase
                cases hxc : x.condition with
                | none => exact ⟨_, _, _, rfl, by simp⟩
                | some cx =>
                  obtain ⟨nx, hnx⟩ := Option.ne_none_iff_exists'.1 (hs'.neg x (by simp) (by simp [hxc]))
                  obtain ⟨count', hc'⟩ := elifCount_ok (bs := pre ++ x :: xs) (by simp)
                  simp only [hnx, Option.isSome_some, if_true, hc']
                  refine immediateLoop_ok fuel _ _ _ _ _ _ hs' hc' hi (by simp) ?_
                  simp only [List.length_append, List.length_cons] at hf ⊢
                  omega
      · rw [if_neg hcond]
        simp only [hbc, hbn]
        have := elifCount_le hc
        exact immediateLoop_ok fuel _ _ _ _ _ _ hs hc (by omega) (by omega) (by omega)
    · rw [if_neg hlt]
      exact ⟨_, _, _, rfl, hne⟩

theorem ofTest_negated {t : Test α ν} {n : Nat} (hc : (Block.ofTest t n).condition ≠ none) :
    (Block.ofTest t n).negated ≠ none := by
  cases t with
  | single node c => simpa [Block.ofTest] using hc
  | boolOp isOr operands =>
    simp only [Block.ofTest] at hc ⊢
    cases h : allSome (operands.map Prod.snd) with
    | none => simp [h] at hc
    | some cs => simp

theorem decompose_shape : ∀ {ts : List (Test α ν)} {hasElse : Bool} {n : Nat} {bs : List (Block α ν)},
    decompose ts hasElse n = some bs → Shape bs ∧ (ts ≠ [] → ∃ b rest neg, bs = b :: rest ∧ b.negated = some neg)
  | [], hasElse, n, bs, hd => by
    simp only [decompose, Option.some.injEq] at hd
    subst hd
    cases hasElse
    · exact ⟨⟨by simp, by simp⟩, by simp⟩
    · exact ⟨⟨by simp, by simp⟩, by simp⟩
  | t :: ts, hasElse, n, bs, hd => by
    simp only [decompose] at hd
    cases hc : (Block.ofTest t n).condition with
    | none => rw [hc] at hd; cases hd
    | some c =>
      rw [hc] at hd
      cases hr : decompose ts hasElse (n + 1) with
      | none => rw [hr] at hd; cases hd
      | some bs' =>
        rw [hr] at hd
        simp only [Option.some.injEq] at hd
        subst hd
        obtain ⟨hs, -⟩ := decompose_shape hr
        obtain ⟨neg, hneg⟩ := Option.ne_none_iff_exists'.1 (ofTest_negated (t := t) (n := n) (by simp [hc]))
        refine ⟨⟨?_, ?_⟩, fun _ => ⟨_, _, neg, rfl, hneg⟩⟩
        · intro b hb
          rcases List.mem_cons.1 hb with rfl | hb
          · simp [hneg]
          · exact hs.neg b hb
        · intro b hb
          cases bs' with
          | nil => simp at hb
          | cons x xs =>
            rw [List.dropLast_cons_cons] at hb
            rcases List.mem_cons.1 hb with rfl | hb
            · simp [hc]
            · exact hs.mid b hb

theorem immediate_ok {short : ν → Bool} {bs rest : List (Block α ν)} {b : Block α ν} {neg : Cond α} (hs : Shape bs)
    (hb : bs = b :: rest) (hn : b.negated = some neg) : ∃ q, immediate imp short bs = .ok q := by
  subst hb
  obtain ⟨count, hc⟩ := elifCount_ok (bs := b :: rest) (by simp)
  obtain ⟨bs', made, e, hl, hne⟩ := immediateLoop_ok (imp := imp) (short := short) ((b :: rest).length + 1) (b :: rest) 1 count
    neg false false hs hc (by omega) (by simp) (by omega)
  simp only [immediate, hn, hc, hl]
  cases hgl : bs'.getLast? with
  | none => exact absurd (List.getLast?_eq_none_iff.1 hgl) hne
  | some d => exact ⟨_, rfl⟩

/-- The fuel in `checkIf` is enough. -/
theorem checkIf_fuel {short : ν → Bool} {simple : List (Cond α × ν)} {skip hasElse : Bool} {ts : List (Test α ν)} :
    ts ≠ [] → checkIf imp short simple skip ts hasElse ≠ .error .recursionError := by
  intro hts hc
  unfold checkIf at hc
  cases hd : decompose ts hasElse 1 with
  | none => rw [hd] at hc; cases hc
  | some bs =>
    obtain ⟨hs, hfirst⟩ := decompose_shape hd
    obtain ⟨b, rest, neg, rfl, hneg⟩ := hfirst hts
    rw [hd] at hc
    simp only at hc
    obtain ⟨⟨bs1, made, e⟩, hi⟩ := immediate_ok (imp := imp) (short := short) hs rfl hneg
    rw [hi] at hc
    simp only at hc
    cases skip with
    | true => simp at hc
    | false =>
      simp only [Bool.false_eq_true, if_false] at hc
      cases hce : (if bs1.getLast?.any (fun b => b.condition.isNone) then convertElse imp simple bs1 else .ok bs1) with
      | error x =>
        rw [hce] at hc
        simp only [Except.error.injEq] at hc
        subst hc
        unfold convertElse at hce
        repeat' split at hce
        all_goals cases hce
      | ok bs2 =>
        rw [hce] at hc
        simp only at hc
        cases hec : elifCount bs2 with
        | error x =>
          rw [hec] at hc
          simp only [Except.error.injEq] at hc
          subst hc
          exact elifCount_fuel hec
        | ok count =>
          rw [hec] at hc
          simp only at hc
          have hle := elifCount_le hec
          have hfuel : bs2.length * (bs2.length + 3) + (count - 1) + 1 ≤ (bs2.length + 3) ^ 2 := by
            have : (bs2.length + 3) ^ 2 = bs2.length * (bs2.length + 3) + 3 * (bs2.length + 3) := by
              rw [Nat.pow_two, Nat.add_mul]
            omega
          have := ((moves_fuel (imp := imp) e bs2.length _).1 bs2.length bs2 count 0 (count - 1) false (Nat.le_refl _) (by omega)
            (by omega) hfuel).1
          cases hmu : moveUp imp e ((bs2.length + 3) ^ 2) bs2 count 0 (count - 1) false with
          | error x =>
            rw [hmu] at hc
            simp only [Except.error.injEq] at hc
            subst hc
            exact this hmu
          | ok q => rw [hmu] at hc; cases hc

end

/-! ### Claims -/

section
variable {imp : Cond α → Cond α → Bool} {short : ν → Bool} {simple : List (Cond α × ν)} {skip hasElse : Bool}
  {ts : List (Test α ν)} {reports : List (Report ν)}

/-- **C63**: a test reported as always true (false) is true (false) whenever it is reached; the shorter test that is suggested
is true whenever it is reached exactly if the original is; a branch reported as unreachable is not reached. -/
theorem C63 {holds : α → Bool} {truth : ν → Bool} (hs : Sound imp holds) (hf : ∀ t ∈ ts, t.Faithful holds truth)
    (hsimple : ∀ s ∈ simple, s.1.eval holds = truth s.2) (hc : checkIf imp short simple skip ts hasElse = .ok reports) :
    (∀ n, .alwaysTrue n ∈ reports → ∃ t, ts[n - 1]? = some t ∧
      ((∀ t' ∈ ts.take (n - 1), t'.truth truth = false) → t.truth truth = true)) ∧
    (∀ n, .alwaysFalse n ∈ reports → ∃ t, ts[n - 1]? = some t ∧
      ((∀ t' ∈ ts.take (n - 1), t'.truth truth = false) → t.truth truth = false)) ∧
    (∀ n isOr operands, .redundant n isOr operands ∈ reports → ∃ t, ts[n - 1]? = some t ∧
      ((∀ t' ∈ ts.take (n - 1), t'.truth truth = false) →
        t.truth truth = if isOr then operands.any truth else operands.all truth)) ∧
    (∀ n, .unreachable n ∈ reports → n ≤ (if hasElse then ts.length + 1 else ts.length) ∧
      ∃ t' ∈ ts.take (n - 1), t'.truth truth = true) := by
  have h := reports_right hs hf hsimple hc
  refine ⟨fun n hn => h _ hn, fun n hn => h _ hn, fun n isOr ops hn => h _ hn, fun n hn => ⟨(h _ hn).1, ?_⟩⟩
  have := (h _ hn).2
  unfold Reached at this
  simp only [not_forall, Bool.not_eq_false] at this
  obtain ⟨t, ht, htt⟩ := this
  exact ⟨t, ht, htt⟩

/-- **C64**: a statement that is written as suggested executes the same branch as the original one. -/
theorem C64 {holds : α → Bool} {truth : ν → Bool} (hs : Sound imp holds) (hf : ∀ t ∈ ts, t.Faithful holds truth)
    (hsimple : ∀ s ∈ simple, s.1.eval holds = truth s.2) (hc : checkIf imp short simple skip ts hasElse = .ok reports)
    {order : List (Nat × Option (Bool × List ν))} (hr : .reorder order ∈ reports) :
    executedOrder truth order = executed truth ts hasElse 1 :=
  reports_right hs hf hsimple hc _ hr

/-- **C65**, as far as it holds: if branches are not moved, no exception is raised. (In full: for every `skip`.) -/
theorem C65_partial (imp : Cond α → Cond α → Bool) (short : ν → Bool) (simple : List (Cond α × ν)) (hasElse : Bool)
    (hts : ts ≠ []) : ∃ reports, checkIf imp short simple true ts hasElse = .ok reports := by
  unfold checkIf
  cases hd : decompose ts hasElse 1 with
  | none => exact ⟨_, rfl⟩
  | some bs =>
    obtain ⟨hs, hfirst⟩ := decompose_shape hd
    obtain ⟨b, rest, neg, rfl, hneg⟩ := hfirst hts
    obtain ⟨⟨bs1, made, e⟩, hi⟩ := immediate_ok (imp := imp) (short := short) hs rfl hneg
    simp only [hi, if_true]
    exact ⟨_, rfl⟩

end

/-! ### Examples -/

/-- `x != 0`, `x < 5`, `abs(x - 7) < 3`, `abs(x - 6) < 4`, `x >= 10` and `x == 0` -/
inductive Atom where
  | notZero | small | near7 | near6 | large | zero
deriving DecidableEq

/-- The meaning for a value of `x`. -/
def Atom.holds (x : Int) : Atom → Bool
  | .notZero => decide (x ≠ 0)
  | .small => decide (x < 5)
  | .near7 => decide (-3 < x - 7 ∧ x - 7 < 3)
  | .near6 => decide (-4 < x - 6 ∧ x - 6 < 4)
  | .large => decide (x ≥ 10)
  | .zero => decide (x = 0)

/-- A solver for these conditions: they cannot tell other integers from these ones. -/
def solve (a b : Cond Atom) : Bool := ([-1, 0, 3, 7, 12] : List Int).all fun x => !a.eval (Atom.holds x) || b.eval (Atom.holds x)

theorem solve_sound (x : Int) : Sound solve (Atom.holds x) := by
  have h : ∃ y ∈ ([-1, 0, 3, 7, 12] : List Int), Atom.holds x = Atom.holds y := by
    by_cases h0 : x = 0
    · exact ⟨0, by simp, by rw [h0]⟩
    by_cases h1 : x < 3
    · refine ⟨-1, by simp, ?_⟩
      funext a
      cases a <;> simp only [Atom.holds, decide_eq_decide] <;> omega
    by_cases h2 : x < 5
    · refine ⟨3, by simp, ?_⟩
      funext a
      cases a <;> simp only [Atom.holds, decide_eq_decide] <;> omega
    by_cases h3 : x < 10
    · refine ⟨7, by simp, ?_⟩
      funext a
      cases a <;> simp only [Atom.holds, decide_eq_decide] <;> omega
    · refine ⟨12, by simp, ?_⟩
      funext a
      cases a <;> simp only [Atom.holds, decide_eq_decide] <;> omega
  obtain ⟨y, hy, hxy⟩ := h
  intro a b hab ha
  rw [hxy] at ha ⊢
  have := List.all_eq_true.1 hab y hy
  simpa [ha] using this

/-- An operand and its translation. -/
def operand (a : Atom) : Atom × Option (Cond Atom) := (a, some (.atom a))

def single (a : Atom) : Test Atom Atom := .single a (some (.atom a))

theorem atoms_faithful (x : Int) (ops : List Atom) (isOr : Bool) :
    (Test.boolOp isOr (ops.map operand) : Test Atom Atom).Faithful (Atom.holds x) (Atom.holds x) := by
  intro o ho c hc
  obtain ⟨a, -, rfl⟩ := List.mem_map.1 ho
  cases hc
  rfl

theorem atom_faithful (x : Int) (a : Atom) : (single a).Faithful (Atom.holds x) (Atom.holds x) := by
  intro c hc
  cases hc
  rfl

/-- `if x == 0: … elif x < 5: … elif x != 0 and x >= 10: … elif x == 0: … else: …` -/
def exSame : List (Test Atom Atom) :=
  [single .zero, single .small, .boolOp false [operand .notZero, operand .large], single .zero]

/-- The hypotheses of `C63` hold of `exSame`; an operand is redundant and a condition always false. -/
example : (∀ x, Sound solve (Atom.holds x)) ∧ (∀ x, ∀ t ∈ exSame, t.Faithful (Atom.holds x) (Atom.holds x)) ∧
    checkIf solve (fun _ => true) [] true exSame true = .ok [.redundant 3 false [.large], .alwaysFalse 4] := by
  refine ⟨solve_sound, fun x t ht => ?_, rfl⟩
  simp only [exSame, List.mem_cons, List.not_mem_nil, or_false] at ht
  rcases ht with rfl | rfl | rfl | rfl
  · exact atom_faithful x _
  · exact atom_faithful x _
  · exact atoms_faithful x [.notZero, .large] false
  · exact atom_faithful x _

/-- `if x == 0: … elif x != 0: … elif x < 5: … else: …`: the second test is always true, the rest is not reached. -/
example : checkIf solve (fun _ => false) [] true [single .zero, single .notZero, single .small] true =
    .ok [.alwaysTrue 2, .unreachable 3, .unreachable 4] := rfl

/-- `if x != 0 and x < 5: … elif x >= 10: … elif x == 0: …` -/
def exOrder : List (Test Atom Atom) :=
  [.boolOp false [operand .notZero, operand .small], single .large, single .zero]

/-- The hypotheses of `C64` hold of `exOrder`. -/
example : (∀ x, ∀ t ∈ exOrder, t.Faithful (Atom.holds x) (Atom.holds x)) ∧
    checkIf solve (fun _ => true) [] false exOrder false =
      .ok [.reorder [(3, some (false, [.zero])), (1, some (false, [.small])), (2, some (false, [.large]))]] := by
  refine ⟨fun x t ht => ?_, by decide +kernel⟩
  simp only [exOrder, List.mem_cons, List.not_mem_nil, or_false] at ht
  rcases ht with rfl | rfl | rfl
  · exact atoms_faithful x [.notZero, .small] false
  · exact atom_faithful x _
  · exact atom_faithful x _

/-- `if x != 0 and x < 5: … elif abs(x - 7) < 3 and abs(x - 6) < 4: … elif x >= 10: … elif x == 0: …` -/
def exStale : List (Test Atom Atom) :=
  [.boolOp false [operand .notZero, operand .small], .boolOp false [operand .near7, operand .near6], single .large, single .zero]

/-- **C65** is false: once branches are moved, a number of branches that is out of date makes the solver get `None`. -/
theorem C65_counterexample : (∀ x, Sound solve (Atom.holds x)) ∧
    (∀ x, ∀ t ∈ exStale, t.Faithful (Atom.holds x) (Atom.holds x)) ∧
    checkIf solve (fun _ => true) [] false exStale false = .error .valueError := by
  refine ⟨solve_sound, fun x t ht => ?_, by decide +kernel⟩
  simp only [exStale, List.mem_cons, List.not_mem_nil, or_false] at ht
  rcases ht with rfl | rfl | rfl | rfl
  · exact atoms_faithful x [.notZero, .small] false
  · exact atoms_faithful x [.near7, .near6] false
  · exact atom_faithful x _
  · exact atom_faithful x _

/-- Without moving branches, nothing is raised for `exStale`; the last test is always true. -/
example : checkIf solve (fun _ => true) [] true exStale false = .ok [.alwaysTrue 4] := rfl

end Verif.Elif
