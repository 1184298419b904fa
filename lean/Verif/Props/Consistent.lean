import Verif.Model.Consistent
import Mathlib.Tactic.Push
import Mathlib.Data.List.Chain

/-!
C156: an `if` is not changed where all branches around it have one.
-/

namespace Verif.Consistent

open Verif.Py.Branches
open Verif.IfAttempts (Sym duplicateInIf)

/-! ### What is said -/

/-- The branches of an `if`, its `elif`s and its `else`. -/
inductive Branch : If → Block → Prop where
  | body (i : If) : Branch i i.body
  | elif {t : Test} {b e : Block} {i : If} {x : Block} (h : i.orelse = [.if_ t b e]) (hx : Branch ⟨t, b, e⟩ x) : Branch i x
  | else_ {i : If} (h : i.orelse ≠ []) (hn : ∀ t b e, i.orelse ≠ [.if_ t b e]) : Branch i i.orelse

/-- Each of them has an `if`. -/
def AllHave (i : If) : Prop := ∀ x, Branch i x → ∃ t b e, Stmt.if_ t b e ∈ x

/-- These are the `if`s around a statement, from the closest. -/
inductive Around : Stmt → List If → Prop where
  | nil (s : Stmt) : Around s []
  | cons {s : Stmt} {p : If} {ps : List If} (h : s ∈ p.body ∨ s ∈ p.orelse) (hp : Around p.stmt ps) : Around s (p :: ps)

/-- The `if` that the branch around a statement belongs to: the closest, or if that is an `elif`, the one that this belongs to. -/
inductive Head : List If → If → Prop where
  | single (p : If) : Head [p] p
  | elif {p q h : If} {ps : List If} (e : q.orelse = [p.stmt]) (hh : Head (q :: ps) h) : Head (p :: q :: ps) h
  | inner {p q : If} {ps : List If} (e : q.orelse ≠ [p.stmt]) : Head (p :: q :: ps) p

/-! ### Proofs -/

theorem any_isIf (x : Block) : x.any isIf = true ↔ ∃ t b e, Stmt.if_ t b e ∈ x := by
  rw [List.any_eq_true]
  constructor
  · rintro ⟨s, hs, h⟩
    cases s with
    | if_ t b e => exact ⟨t, b, e, hs⟩
    | simple => exact nomatch h
  · rintro ⟨t, b, e, h⟩
    exact ⟨_, h, rfl⟩

theorem branch_nil {t : Test} {b x : Block} : Branch ⟨t, b, []⟩ x ↔ x = b := by
  constructor
  · intro h
    cases h with
    | body => rfl
    | elif h _ => exact nomatch h
    | else_ h _ => exact absurd rfl h
  · rintro rfl
    exact .body _

theorem branch_elif {t t' : Test} {b b' e' x : Block} : Branch ⟨t, b, [.if_ t' b' e']⟩ x ↔ x = b ∨ Branch ⟨t', b', e'⟩ x := by
  constructor
  · intro h
    cases h with
    | body => exact .inl rfl
    | elif h hx => cases h; exact .inr hx
    | else_ _ hn => exact absurd rfl (hn t' b' e')
  · rintro (rfl | h)
    · exact .body _
    · exact .elif rfl h

theorem branch_else {t : Test} {b e x : Block} (h : e ≠ []) (hn : ∀ t' b' e', e ≠ [.if_ t' b' e']) : Branch ⟨t, b, e⟩ x ↔ x = b ∨ x = e := by
  constructor
  · intro hx
    cases hx with
    | body => exact .inl rfl
    | elif h' _ => exact absurd h' (hn _ _ _)
    | else_ _ _ => exact .inr rfl
  · rintro (rfl | rfl)
    · exact .body _
    · exact .else_ h hn

theorem bodies_iff : ∀ (t : Test) (b e x : Block), x ∈ getBodies (⟨t, b, e⟩ :: elifs e) ↔ Branch ⟨t, b, e⟩ x
  | t, b, [], x => by simp [elifs, getBodies, branch_nil]
  | t, b, [.if_ t' b' e'], x => by
    rw [branch_elif, ← bodies_iff t' b' e' x]
    simp [elifs, elifsIn, getBodies]
  | t, b, [.simple r n], x => by
    rw [branch_else (by simp) (by simp)]
    simp [elifs, elifsIn, getBodies]
  | t, b, s :: s2 :: r, x => by
    rw [branch_else (by simp) (by simp)]
    simp [elifs, getBodies]
termination_by _ _ e _ => sizeOf e

theorem take_bodies : ∀ (t : Test) (b e x : Block) (n : Nat), x ∈ getBodies ((⟨t, b, e⟩ :: elifs e).take (n + 1)) →
    Branch ⟨t, b, e⟩ x ∨ ∃ t b e, x = [.if_ t b e]
  | t, b, [], x, n, h => .inl ((bodies_iff t b [] x).1 (by simpa [elifs] using h))
  | t, b, [.if_ t' b' e'], x, 0, h => by
    simp [elifs, elifsIn, getBodies] at h
    rcases h with rfl | rfl
    · exact .inl (.body _)
    · exact .inr ⟨_, _, _, rfl⟩
  | t, b, [.if_ t' b' e'], x, n + 1, h => by
    rw [branch_elif]
    simp only [elifs, elifsIn, List.isEmpty_nil, if_true, List.take_succ_cons] at h
    rw [getBodies] at h
    · rcases List.mem_cons.1 h with rfl | h
      · exact .inl (.inl rfl)
      · rcases take_bodies t' b' e' x n (by rw [List.take_succ_cons]; exact h) with h | h
        · exact .inl (.inr h)
        · exact .inr h
    · simp
  | t, b, [.simple r m], x, n, h => .inl ((bodies_iff t b [.simple r m] x).1 (by simpa [elifs, elifsIn] using h))
  | t, b, s :: s2 :: r, x, n, h => .inl ((bodies_iff t b (s :: s2 :: r) x).1 (by simpa [elifs] using h))
termination_by _ _ e _ _ => sizeOf e

theorem hasElse_bodies {t : Test} {b e : Block} (h : hasElse e = true) : getBodies [⟨t, b, e⟩] = getBodies (⟨t, b, e⟩ :: elifs e) := by
  match e with
  | [] => exact nomatch h
  | [.if_ _ _ _] => exact nomatch h
  | [.simple _ _] => rfl
  | _ :: _ :: _ => rfl

/-- No `elif`, or a branch that is not just an `if`. -/
def Uncut (i : If) : Prop := (∀ t b e, i.orelse ≠ [.if_ t b e]) ∨ ∀ t b e, i.body ≠ [.if_ t b e]

theorem elifs_nil {e : Block} (h : ∀ t b e', e ≠ [.if_ t b e']) : elifs e = [] := by
  match e with
  | [] => rfl
  | [.if_ t b e] => exact absurd rfl (h t b e)
  | [.simple _ _] => rfl
  | _ :: _ :: _ => rfl

theorem nested_zero {b : Block} (h : ∀ t b' e', b ≠ [.if_ t b' e']) : nestedIfs b = 0 := by
  match b with
  | [] => rfl
  | [.if_ t b e] => exact absurd rfl (h t b e)
  | [.simple _ _] => rfl
  | _ :: _ :: _ => rfl

theorem uncut_bodies {i : If} (h : Uncut i) : getBodies (extractFromElif i).2 = getBodies (i :: elifs i.orelse) := by
  unfold extractFromElif
  split
  · rename_i he
    exact hasElse_bodies he
  · simp only
    split
    · rfl
    · rename_i hn
      push Not at hn
      rcases h with h | h
      · rw [elifs_nil h] at hn
        simp only [List.length_cons, List.length_nil] at hn
        omega
      · exact absurd (nested_zero h) hn.1

theorem bodies_branch {i : If} {x : Block} (h : x ∈ getBodies (extractFromElif i).2) : Branch i x ∨ ∃ t b e, x = [.if_ t b e] := by
  unfold extractFromElif at h
  split at h
  · rename_i he
    have h' : x ∈ getBodies (i :: elifs i.orelse) := hasElse_bodies (t := i.test) (b := i.body) he ▸ h
    exact .inl ((bodies_iff i.test i.body i.orelse x).1 h')
  · simp only at h
    split at h
    · exact .inl ((bodies_iff i.test i.body i.orelse x).1 h)
    · rename_i hn
      push Not at hn
      obtain ⟨k, hk⟩ : ∃ k, (i :: elifs i.orelse).length - nestedIfs i.body = k + 1 := ⟨(i :: elifs i.orelse).length - nestedIfs i.body - 1, by omega⟩
      simp only [hk] at h
      exact take_bodies i.test i.body i.orelse x k h

/-- Of `if`s each of which is an `elif` of the next, the last is the one that the branch belongs to. -/
theorem head_last : ∀ {parents : List If} {h : If}, Head parents h → parents.IsChain (fun p q => q.orelse = [p.stmt]) → parents.getLast? = some h
  | _, _, .single _, _ => rfl
  | _, _, .elif _ hh, hc => by
    rw [List.getLast?_cons_cons]
    exact head_last hh (List.isChain_cons_cons.1 hc).2
  | _, _, .inner e, hc => absurd (List.isChain_cons_cons.1 hc).1 e

/-! ### The property -/

/-- **C156**: if all branches around an `if` have an `if`, then it is one of those that are left. Missing: branches of an `if` that is in a branch of another. -/
theorem C156_kept_partial {parents : List If} {h : If} (hh : Head parents h) (hc : parents.IsChain (fun p q => q.orelse = [p.stmt])) (ha : AllHave h) :
    isOneOfParentsIfs parents = true := by
  have ht := head_last hh hc
  unfold isOneOfParentsIfs
  rw [ht]
  simp only [List.all_eq_true]
  intro x hx
  rw [any_isIf]
  rcases bodies_branch hx with hb | ⟨t, b, e, rfl⟩
  · exact ha x hb
  · exact ⟨t, b, e, List.mem_cons_self ..⟩

/-- **C156**: just these are left. Missing: also those where the first branch is just an `if` and there are `elif`s. -/
theorem C156_only_partial {parents : List If} {h : If} (hh : Head parents h) (hc : parents.IsChain (fun p q => q.orelse = [p.stmt])) (hu : Uncut h) :
    isOneOfParentsIfs parents = true ↔ AllHave h := by
  refine ⟨fun hx x hb => ?_, C156_kept_partial hh hc⟩
  have ht := head_last hh hc
  unfold isOneOfParentsIfs at hx
  rw [ht] at hx
  simp only [List.all_eq_true] at hx
  rw [uncut_bodies hu] at hx
  exact (any_isIf x).1 (hx x ((bodies_iff h.test h.body h.orelse x).2 hb))

/-- **C156**: an `if` in no branch of another is never left. -/
theorem C156_alone : isOneOfParentsIfs [] = false := rfl

/-- **C156**: for an `if` that is left, only what branches have in common and what follows each other is reported. -/
theorem C156_messages {enabled : Sym → Bool} {parents : List If} {f : IfAttempts.If} (h : isOneOfParentsIfs parents = true) :
    ∀ s ∈ reported enabled parents f, (s ∈ f.part ∧ f.endsWithElse = true) ∨ s ∈ f.seq := by
  intro s hs
  unfold reported duplicateInIf at hs
  split at hs
  · exact nomatch hs
  · simp only [List.mem_filter] at hs
    obtain ⟨hs, -⟩ := hs
    rw [h] at hs
    simp only [IfAttempts.attempts, IfAttempts.tryAll, IfAttempts.If.similar, Bool.not_true, Bool.and_false, Bool.false_and, Bool.false_eq_true, if_false] at hs
    cases he : f.endsWithElse <;> cases hp : f.part <;> cases hq : f.seq <;>
      simp_all

/-- **C156**: so no message that suggests to replace it is. -/
theorem C156_similar {enabled : Sym → Bool} {parents : List If} {f : IfAttempts.If} (h : isOneOfParentsIfs parents = true)
    (hp : ∀ s ∈ f.part, s = .part ∨ s = .branches) (hq : ∀ s ∈ f.seq, s = .seqIfs ∨ s = .seqElifs) :
    ∀ s ∈ [Sym.untwisted, .use, .block, .list, .dict, .expr, .extracted], s ∉ reported enabled parents f := by
  intro s hs hr
  have : s = .part ∨ s = .branches ∨ s = .seqIfs ∨ s = .seqElifs := by
    rcases C156_messages h s hr with ⟨hm, -⟩ | hm
    · rcases hp s hm with e | e <;> simp [e]
    · rcases hq s hm with e | e <;> simp [e]
  rcases this with rfl | rfl | rfl | rfl <;> simp at hs

/-- **C156**: and for any other it is reported what is without looking at the branches around it. -/
theorem C156_others {enabled : Sym → Bool} {parents : List If} {f : IfAttempts.If} (h : isOneOfParentsIfs parents = false) (hf : f.oneOfParents = false) :
    reported enabled parents f = (duplicateInIf enabled f).1 := by
  unfold reported
  rw [h]
  cases f
  simp only at hf
  subst hf
  rfl

/-! ### Examples -/

/-- A statement. -/
def st (n : Nat) : Stmt := .simple false n

/-- `if n: …`, `else: …` -/
def ie (n : Nat) (b e : Block) : If := ⟨.atom n, b, e⟩

/-- `if 1: (if 2: a else: b) else: (c; if 3: a)`: both branches have an `if`. -/
def demo : If := ie 1 [(ie 2 [st 1] [st 2]).stmt] [st 3, (ie 3 [st 1] []).stmt]

example : isOneOfParentsIfs [demo] = true := by decide +kernel

example : AllHave demo := (C156_only_partial (.single demo) (.singleton _) (.inl (by intro t b e; simp [demo, ie]))).1 (by decide +kernel)

example : Around (ie 2 [st 1] [st 2]).stmt [demo] ∧ Head [demo] demo := ⟨.cons (.inl (List.mem_cons_self ..)) (.nil _), .single _⟩

/-- `if 1: (if 2: a else: b) else: c` -/
example : isOneOfParentsIfs [ie 1 [(ie 2 [st 1] [st 2]).stmt] [st 3]] = false := by decide +kernel

/-- `if 1: (if 2: a) elif 3: (if 4: a else: b)`: `if 4` is in a branch that belongs to `if 1`. -/
example : let p := ie 3 [(ie 4 [st 1] [st 2]).stmt] []
    let q := ie 1 [(ie 2 [st 1] []).stmt] [p.stmt]
    Head [p, q] q ∧ [p, q].IsChain (fun p q => q.orelse = [p.stmt]) ∧ isOneOfParentsIfs [p, q] = true :=
  ⟨.elif rfl (.single _), by simp [ie], by decide +kernel⟩

/-- What can be written as an expression is reported, and is not where each branch around it has an `if`. -/
example : let f : IfAttempts.If := ⟨false, true, false, true, [], [], some 1, false, false, false, false, false, false, true, false, none⟩
    reported (fun _ => true) [] f = [.expr] ∧ reported (fun _ => true) [demo] f = [] := by decide +kernel

/-! ### What is false -/

/-- **C156** is false: the branches of the outermost `if` are asked for, not those around the `if`. In
`if 1: (if 2: (if 3: a else: b) else: (if 4: a else: b)) else: c`, both branches around `if 3` have an `if`; it is not left. -/
theorem C156_outermost_counterexample :
    let inner := ie 2 [(ie 3 [st 1] [st 2]).stmt] [st 5, (ie 4 [st 1] [st 2]).stmt]
    let outer := ie 1 [inner.stmt] [st 3]
    Around (ie 3 [st 1] [st 2]).stmt [inner, outer] ∧ Head [inner, outer] inner ∧ AllHave inner ∧ isOneOfParentsIfs [inner, outer] = false := by
  refine ⟨.cons (.inl (List.mem_cons_self ..)) (.cons (.inl (List.mem_cons_self ..)) (.nil _)), .inner (by simp [ie, st, If.stmt]), ?_, by decide +kernel⟩
  intro x hx
  rw [ie, branch_else (by simp) (by simp)] at hx
  rcases hx with rfl | rfl
  · exact ⟨_, _, _, List.mem_cons_self ..⟩
  · exact ⟨_, _, _, List.mem_cons_of_mem _ (List.mem_cons_self ..)⟩

/-- … and in `if 1: (if 2: (if 3: a else: b) else: c) else: (d; if 4: a)`, `if 3` is left, although the other branch around it has no `if`. -/
theorem C156_inner_counterexample :
    let inner := ie 2 [(ie 3 [st 1] [st 2]).stmt] [st 3]
    let outer := ie 1 [inner.stmt] [st 4, (ie 4 [st 1] []).stmt]
    Around (ie 3 [st 1] [st 2]).stmt [inner, outer] ∧ Head [inner, outer] inner ∧ ¬ AllHave inner ∧ isOneOfParentsIfs [inner, outer] = true := by
  refine ⟨.cons (.inl (List.mem_cons_self ..)) (.cons (.inl (List.mem_cons_self ..)) (.nil _)), .inner (by simp [ie, st, If.stmt]), ?_, by decide +kernel⟩
  intro h
  obtain ⟨t, b, e, hm⟩ := h [st 3] (.else_ (i := ie 2 [(ie 3 [st 1] [st 2]).stmt] [st 3]) (by simp [ie]) (by simp [ie, st]))
  simp [st] at hm

/-- **C156** is false: if the first branch is just an `if`, then so many of the last `elif`s are not asked for as there are `if`s inside each other. In
`if 1: (if 2: a else: b) elif 3: (if 4: a) elif 5: c`, `if 2` is left. -/
theorem C156_cut_counterexample :
    let i := ie 1 [(ie 2 [st 1] [st 2]).stmt] [(ie 3 [(ie 4 [st 1] []).stmt] [(ie 5 [st 3] []).stmt]).stmt]
    Around (ie 2 [st 1] [st 2]).stmt [i] ∧ Head [i] i ∧ ¬ AllHave i ∧ isOneOfParentsIfs [i] = true := by
  refine ⟨.cons (.inl (List.mem_cons_self ..)) (.nil _), .single _, ?_, by decide +kernel⟩
  intro h
  obtain ⟨t, b, e, hm⟩ := h [st 3] (.elif (t := .atom 3) (b := [(ie 4 [st 1] []).stmt]) (e := [(ie 5 [st 3] []).stmt]) rfl
    (.elif (t := .atom 5) (b := [st 3]) (e := []) rfl (.body _)))
  simp [st] at hm

/-- … and in `if 1: (if 2: (if 6: a else: b)) elif 3: c elif 5: d`, no branch of an `elif` is asked for. -/
theorem C156_cut_deeper_counterexample :
    let p := ie 2 [(ie 6 [st 1] [st 2]).stmt] []
    let i := ie 1 [p.stmt] [(ie 3 [st 3] [(ie 5 [st 4] []).stmt]).stmt]
    Around p.stmt [i] ∧ Head [i] i ∧ ¬ AllHave i ∧ isOneOfParentsIfs [i] = true := by
  refine ⟨.cons (.inl (List.mem_cons_self ..)) (.nil _), .single _, ?_, by decide +kernel⟩
  intro h
  obtain ⟨t, b, e, hm⟩ := h [st 3] (.elif (t := .atom 3) (b := [st 3]) (e := [(ie 5 [st 4] []).stmt]) rfl (.body _))
  simp [st] at hm

end Verif.Consistent
