import Verif.Model.CommonBranches
import Mathlib.Tactic.ByContra

/-!
What executions of `if`s are, and what is compared.
-/

namespace Verif.Py.Branches

section
variable {S : Type} {L : Lang S}

/-! ### Executions -/

theorem runB_nil {s o s'} : RunB L [] s o s' ↔ o = .normal ∧ s' = s := by
  constructor
  · intro h; cases h; exact ⟨rfl, rfl⟩
  · rintro ⟨rfl, rfl⟩; exact .nil

theorem runB_cons {st b s o s'} :
    RunB L (st :: b) s o s' ↔ (∃ s1, Run L st s .normal s1 ∧ RunB L b s1 o s') ∨ (Run L st s o s' ∧ o ≠ .normal) := by
  constructor
  · intro h
    cases h with
    | next h1 h2 => exact .inl ⟨_, h1, h2⟩
    | leave h1 h2 => exact .inr ⟨h1, h2⟩
  · rintro (⟨_, h1, h2⟩ | ⟨h1, h2⟩)
    · exact .next h1 h2
    · exact .leave h1 h2

theorem runB_single {st s o s'} : RunB L [st] s o s' ↔ Run L st s o s' := by
  rw [runB_cons]
  constructor
  · rintro (⟨s1, h1, h2⟩ | ⟨h1, _⟩)
    · obtain ⟨rfl, rfl⟩ := runB_nil.1 h2; exact h1
    · exact h1
  · intro h
    by_cases ho : o = .normal
    · subst ho; exact .inl ⟨_, h, .nil⟩
    · exact .inr ⟨h, ho⟩

theorem runB_append {a b : Block} : ∀ {s o s'},
    RunB L (a ++ b) s o s' ↔ (∃ s1, RunB L a s .normal s1 ∧ RunB L b s1 o s') ∨ (RunB L a s o s' ∧ o ≠ .normal) := by
  induction a with
  | nil =>
    intro s o s'
    constructor
    · intro h; exact .inl ⟨s, .nil, h⟩
    · rintro (⟨s1, h1, h2⟩ | ⟨h1, h2⟩)
      · obtain ⟨_, rfl⟩ := runB_nil.1 h1; exact h2
      · exact absurd (runB_nil.1 h1).1 h2
  | cons st a ih =>
    intro s o s'
    rw [List.cons_append, runB_cons]
    constructor
    · rintro (⟨s1, h1, h2⟩ | ⟨h1, h2⟩)
      · rcases ih.1 h2 with ⟨s2, h3, h4⟩ | ⟨h3, h4⟩
        · exact .inl ⟨s2, .next h1 h3, h4⟩
        · exact .inr ⟨.next h1 h3, h4⟩
      · exact .inr ⟨.leave h1 h2, h2⟩
    · rintro (⟨s1, h1, h2⟩ | ⟨h1, h2⟩)
      · rcases runB_cons.1 h1 with ⟨s2, h3, h4⟩ | ⟨_, h4⟩
        · exact .inl ⟨s2, h3, ih.2 (.inl ⟨s1, h4, h2⟩)⟩
        · exact absurd rfl h4
      · rcases runB_cons.1 h1 with ⟨s2, h3, h4⟩ | ⟨h3, h4⟩
        · exact .inl ⟨s2, h3, ih.2 (.inr ⟨h4, h2⟩)⟩
        · exact .inr ⟨h3, h4⟩

theorem run_if {t b e s o s'} : Run L (.if_ t b e) s o s' ↔
    (∃ s1, L.eval t s = (.ok true, s1) ∧ RunB L b s1 o s') ∨ (∃ s1, L.eval t s = (.ok false, s1) ∧ RunB L e s1 o s') ∨
      (∃ x, L.eval t s = (.error x, s') ∧ o = .raise x) := by
  constructor
  · intro h
    cases h with
    | then_ h1 h2 => exact .inl ⟨_, h1, h2⟩
    | else_ h1 h2 => exact .inr (.inl ⟨_, h1, h2⟩)
    | raise h1 => exact .inr (.inr ⟨_, h1, rfl⟩)
  · rintro (⟨_, h1, h2⟩ | ⟨_, h1, h2⟩ | ⟨_, h1, rfl⟩)
    · exact .then_ h1 h2
    · exact .else_ h1 h2
    · exact .raise h1

/-- An `if` whose condition is what it is. -/
theorem run_true {t b e s s1 o s'} (h : L.eval t s = (.ok true, s1)) : Run L (.if_ t b e) s o s' ↔ RunB L b s1 o s' := by
  rw [run_if, h]; simp

theorem run_false {t b e s s1 o s'} (h : L.eval t s = (.ok false, s1)) : Run L (.if_ t b e) s o s' ↔ RunB L e s1 o s' := by
  rw [run_if, h]; simp

theorem run_raise {t b e s x s1 o s'} (h : L.eval t s = (.error x, s1)) :
    Run L (.if_ t b e) s o s' ↔ o = .raise x ∧ s' = s1 := by
  rw [run_if, h]
  simp only [Prod.mk.injEq, reduceCtorEq, false_and, exists_false, Except.error.injEq, false_or]
  constructor
  · rintro ⟨_, ⟨rfl, rfl⟩, rfl⟩; exact ⟨rfl, rfl⟩
  · rintro ⟨rfl, rfl⟩; exact ⟨x, ⟨rfl, rfl⟩, rfl⟩

/-- The condition has one of three results. -/
theorem eval_cases (t : Test) (s : S) :
    (∃ s1, L.eval t s = (.ok true, s1)) ∨ (∃ s1, L.eval t s = (.ok false, s1)) ∨ ∃ x s1, L.eval t s = (.error x, s1) := by
  rcases h : L.eval t s with ⟨v, s1⟩
  cases v with
  | error x => exact .inr (.inr ⟨x, s1, rfl⟩)
  | ok v => cases v with
    | true => exact .inl ⟨s1, rfl⟩
    | false => exact .inr (.inl ⟨s1, rfl⟩)

theorem Same.refl (b : Block) : Same L b b := fun _ _ _ => Iff.rfl

theorem Same.symm {a b : Block} (h : Same L a b) : Same L b a := fun s o s' => (h s o s').symm

theorem Same.trans {a b c : Block} (h : Same L a b) (h' : Same L b c) : Same L a c := fun s o s' => (h s o s').trans (h' s o s')

theorem Same.append {a b : Block} (h : Same L a b) (c : Block) : Same L (a ++ c) (b ++ c) := by
  intro s o s'
  rw [runB_append, runB_append]
  constructor <;> rintro (⟨s1, h1, h2⟩ | ⟨h1, h2⟩)
  · exact .inl ⟨s1, (h _ _ _).1 h1, h2⟩
  · exact .inr ⟨(h _ _ _).1 h1, h2⟩
  · exact .inl ⟨s1, (h _ _ _).2 h1, h2⟩
  · exact .inr ⟨(h _ _ _).2 h1, h2⟩

theorem Same.orelse {t : Test} {b a c : Block} (h : Same L a c) : Same L [.if_ t b a] [.if_ t b c] := by
  intro s o s'
  rw [runB_single, runB_single]
  rcases eval_cases (L := L) t s with ⟨s1, ht⟩ | ⟨s1, ht⟩ | ⟨x, s1, ht⟩
  · rw [run_true ht, run_true ht]
  · rw [run_false ht, run_false ht]; exact h _ _ _
  · rw [run_raise ht, run_raise ht]

/-! ### What is common to the branches can be moved -/

theorem chain_after (f : Block → Block) (X : Block) : ∀ (ifs : List If) (E : Block),
    (∀ i ∈ ifs, i.body = f i.body ++ X) → E = f E ++ X → Same L (chain ifs E) (chain (mapBodies f ifs) (f E) ++ X)
  | [], E, _, hE => by
    intro s o s'
    show RunB L E s o s' ↔ RunB L (f E ++ X) s o s'
    rw [← hE]
  | i :: ifs, E, hb, hE => by
    have ih := chain_after f X ifs E (fun j hj => hb j (List.mem_cons_of_mem _ hj)) hE
    have hi := hb i List.mem_cons_self
    intro s o s'
    show RunB L [.if_ i.test i.body (chain ifs E)] s o s' ↔
      RunB L ([.if_ i.test (f i.body) (chain (mapBodies f ifs) (f E))] ++ X) s o s'
    rw [runB_append, runB_single]
    simp only [runB_single]
    rcases eval_cases (L := L) i.test s with ⟨s1, ht⟩ | ⟨s1, ht⟩ | ⟨x, s1, ht⟩
    · simp only [run_true ht]
      rw [hi, runB_append, ← hi]
    · simp only [run_false ht]
      rw [ih s1 o s', runB_append]
    · simp only [run_raise ht, reduceCtorEq, false_and, exists_false, false_or]
      constructor
      · rintro ⟨rfl, rfl⟩; exact ⟨⟨rfl, rfl⟩, fun h => nomatch h⟩
      · rintro ⟨h, _⟩; exact h

/-- The condition has no effect, and has the same truth value after the statements. -/
def Kept (L : Lang S) (P : Block) (s : S) (t : Test) : Prop :=
  ∃ v, L.eval t s = (.ok v, s) ∧ ∀ s1, RunB L P s .normal s1 → L.eval t s1 = (.ok v, s1)

theorem chain_before (f : Block → Block) (P : Block) (s : S) : ∀ (ifs : List If) (E : Block),
    (∀ i ∈ ifs, i.body = P ++ f i.body) → E = P ++ f E → (∀ i ∈ ifs, Kept L P s i.test) →
    ∀ o s', RunB L (chain ifs E) s o s' ↔ RunB L (P ++ chain (mapBodies f ifs) (f E)) s o s'
  | [], E, _, hE, _ => by
    intro o s'
    show RunB L E s o s' ↔ RunB L (P ++ f E) s o s'
    rw [← hE]
  | i :: ifs, E, hb, hE, hk => by
    have ih := chain_before f P s ifs E (fun j hj => hb j (List.mem_cons_of_mem _ hj)) hE
      (fun j hj => hk j (List.mem_cons_of_mem _ hj))
    have hi := hb i List.mem_cons_self
    intro o s'
    show RunB L [.if_ i.test i.body (chain ifs E)] s o s' ↔
      RunB L (P ++ [.if_ i.test (f i.body) (chain (mapBodies f ifs) (f E))]) s o s'
    obtain ⟨v, hv, hv'⟩ := hk i List.mem_cons_self
    rw [runB_append, runB_single]
    simp only [runB_single]
    cases v with
    | true =>
      rw [run_true hv, hi, runB_append, ← hi]
      constructor <;> rintro (⟨s1, h1, h2⟩ | h)
      · exact .inl ⟨s1, h1, (run_true (hv' s1 h1)).2 h2⟩
      · exact .inr h
      · exact .inl ⟨s1, h1, (run_true (hv' s1 h1)).1 h2⟩
      · exact .inr h
    | false =>
      rw [run_false hv, ih, runB_append]
      constructor <;> rintro (⟨s1, h1, h2⟩ | h)
      · exact .inl ⟨s1, h1, (run_false (hv' s1 h1)).2 h2⟩
      · exact .inr h
      · exact .inl ⟨s1, h1, (run_false (hv' s1 h1)).1 h2⟩
      · exact .inr h

theorem chain_same (B : Block) (s : S) : ∀ (ifs : List If) (E : Block), (∀ i ∈ ifs, i.body = B) → E = B →
    (∀ i ∈ ifs, ∃ v, L.eval i.test s = (.ok v, s)) → ∀ o s', RunB L (chain ifs E) s o s' ↔ RunB L B s o s'
  | [], E, _, hE, _ => by intro o s'; show RunB L E s o s' ↔ _; rw [hE]
  | i :: ifs, E, hb, hE, hk => by
    have ih := chain_same B s ifs E (fun j hj => hb j (List.mem_cons_of_mem _ hj)) hE
      (fun j hj => hk j (List.mem_cons_of_mem _ hj))
    intro o s'
    show RunB L [.if_ i.test i.body (chain ifs E)] s o s' ↔ _
    obtain ⟨v, hv⟩ := hk i List.mem_cons_self
    rw [runB_single]
    cases v with
    | true => rw [run_true hv, hb i List.mem_cons_self]
    | false => rw [run_false hv, ih]

end

/-! ### The branches -/

theorem elifs_cases (e : Block) : elifs e = [] ∨ ∃ t b e', e = [.if_ t b e'] ∧ elifs e = ⟨t, b, e'⟩ :: elifs e' := by
  match e with
  | [] => exact .inl rfl
  | [.if_ t b e'] => exact .inr ⟨t, b, e', rfl, rfl⟩
  | [.simple _ _] => exact .inl rfl
  | .if_ _ _ _ :: _ :: _ => exact .inl rfl
  | .simple _ _ :: _ :: _ => exact .inl rfl

theorem elifs_cons {e : Block} {j : If} {q : List If} (h : elifs e = j :: q) : e = [j.stmt] ∧ q = elifs j.orelse := by
  rcases elifs_cases e with h' | ⟨t, b, e', rfl, h'⟩
  · rw [h] at h'; exact nomatch h'
  · rw [h] at h'
    obtain ⟨rfl, rfl⟩ := List.cons.inj h'
    exact ⟨rfl, rfl⟩

theorem hasElse_elifs {e : Block} (h : hasElse e = true) : elifs e = [] := by
  rcases elifs_cases e with h' | ⟨t, b, e', rfl, _⟩
  · exact h'
  · simp [hasElse, hasElif] at h

/-- The beginning of the `elif`s, with what is in the `else` of the last one of them. -/
theorem chain_prefix : ∀ (q : List If) (i : If), q <+: elifs i.orelse → [i.stmt] = chain (i :: q) (elseOf (i :: q))
  | [], i, _ => rfl
  | j :: q, i, h => by
    obtain ⟨r, hr⟩ := h
    obtain ⟨h1, h2⟩ := elifs_cons hr.symm
    have ih := chain_prefix q j ⟨r, h2⟩
    show [Stmt.if_ i.test i.body i.orelse] = [Stmt.if_ i.test i.body (chain (j :: q) (elseOf (j :: q)))]
    rw [← ih, h1]

theorem elseOf_prefix : ∀ (q : List If) (i j : If) (r : List If), q ++ j :: r = elifs i.orelse → elseOf (i :: q) ≠ []
  | [], i, j, r, h => by
    show i.orelse ≠ []
    rw [(elifs_cons h.symm).1]; simp
  | k :: q, i, j, r, h => by
    obtain ⟨_, h2⟩ := elifs_cons h.symm
    exact elseOf_prefix q k j r h2

theorem getBodies_eq : ∀ (q : List If) (i : If), elseOf (i :: q) ≠ [] →
    getBodies (i :: q) = (i :: q).map (·.body) ++ [elseOf (i :: q)]
  | [], i, h => by
    have : i.orelse.isEmpty = false := by cases he : i.orelse with
      | nil => exact absurd he h
      | cons => rfl
    simp [getBodies, this, elseOf]
  | j :: q, i, h => by
    show i.body :: getBodies (j :: q) = _
    rw [getBodies_eq q j h]
    rfl

theorem hasElse_ne {e : Block} (h : hasElse e = true) : e ≠ [] := by
  rintro rfl; simp [hasElse] at h

/-- The `if`s that are compared, when there is an `else`. -/
theorem extract_true {i : If} (h : (extractFromElif i).1 = true) : ∃ q, (extractFromElif i).2 = i :: q ∧
    q <+: elifs i.orelse ∧ elseOf (i :: q) ≠ [] := by
  unfold extractFromElif at h ⊢
  by_cases h1 : hasElse i.orelse = true
  · simp only [h1, if_true]
    exact ⟨[], rfl, List.nil_prefix, hasElse_ne h1⟩
  · simp only [h1, Bool.false_eq_true, if_false] at h ⊢
    by_cases h2 : nestedIfs i.body = 0 ∨ (i :: elifs i.orelse).length ≤ nestedIfs i.body
    · rw [if_pos h2] at h ⊢
      exact ⟨_, rfl, List.prefix_refl _, hasElse_ne h⟩
    · rw [if_neg h2] at h ⊢
      obtain ⟨h3, h4⟩ := not_or.1 h2
      simp only [List.length_cons, Nat.not_le] at h4
      have : (i :: elifs i.orelse).length - nestedIfs i.body = ((elifs i.orelse).length - nestedIfs i.body) + 1 := by
        simp only [List.length_cons]; omega
      refine ⟨(elifs i.orelse).take ((elifs i.orelse).length - nestedIfs i.body), ?_, List.take_prefix _ _, ?_⟩
      · simp only [this, List.take_succ_cons]
      · have hlt : (elifs i.orelse).length - nestedIfs i.body < (elifs i.orelse).length := by omega
        refine elseOf_prefix _ i ((elifs i.orelse)[(elifs i.orelse).length - nestedIfs i.body])
          ((elifs i.orelse).drop ((elifs i.orelse).length - nestedIfs i.body + 1)) ?_
        rw [← List.drop_eq_getElem_cons hlt, List.take_append_drop]

theorem extract_false {i : If} (h : (extractFromElif i).1 = false) : (extractFromElif i).2 = i :: elifs i.orelse := by
  unfold extractFromElif at h ⊢
  by_cases h1 : hasElse i.orelse = true
  · simp only [h1, if_true] at h; exact nomatch h
  · simp only [h1, Bool.false_eq_true, if_false] at h ⊢
    by_cases h2 : nestedIfs i.body = 0 ∨ (i :: elifs i.orelse).length ≤ nestedIfs i.body
    · rw [if_pos h2]
    · rw [if_neg h2] at h; exact nomatch h

/-! ### What is common -/

theorem commonPrefix_spec : ∀ (ref : Block) (compare : List Block), commonPrefix ref compare ≤ ref.length ∧
    (∀ b ∈ compare, ref.take (commonPrefix ref compare) <+: b) ∧
    ∀ p : Block, p <+: ref → (∀ b ∈ compare, p <+: b) → p.length ≤ commonPrefix ref compare
  | [], compare => by
    refine ⟨Nat.le_refl _, fun b _ => by simp [commonPrefix], fun p hp _ => ?_⟩
    rw [List.prefix_nil.1 hp]; exact Nat.zero_le _
  | s :: ref, compare => by
    obtain ⟨ih1, ih2, ih3⟩ := commonPrefix_spec ref (compare.map List.tail)
    unfold commonPrefix
    by_cases h : compare.all (fun b => decide (b.head? = some s)) = true
    · rw [if_pos h]
      have hall : ∀ b ∈ compare, ∃ b', b = s :: b' := by
        intro b hb
        have := of_decide_eq_true (List.all_eq_true.1 h b hb)
        cases b with
        | nil => exact nomatch this
        | cons x b' => exact ⟨b', by rw [show x = s by simpa using this]⟩
      refine ⟨by simp only [List.length_cons]; omega, fun b hb => ?_, fun p hp hpb => ?_⟩
      · obtain ⟨b', rfl⟩ := hall b hb
        rw [List.take_succ_cons]
        exact (List.prefix_cons_inj s).2 (ih2 b' (List.mem_map.2 ⟨_, hb, rfl⟩))
      · cases p with
        | nil => exact Nat.zero_le _
        | cons x p =>
          have hx : x = s ∧ p <+: ref := by
            obtain ⟨r, hr⟩ := hp
            obtain ⟨rfl, rfl⟩ := List.cons.inj hr
            exact ⟨rfl, _, rfl⟩
          obtain ⟨rfl, hp'⟩ := hx
          refine Nat.succ_le_succ (ih3 p hp' fun b hb => ?_)
          obtain ⟨c, hc, rfl⟩ := List.mem_map.1 hb
          obtain ⟨b', rfl⟩ := hall c hc
          exact (List.prefix_cons_inj x).1 (hpb _ hc)
    · rw [if_neg h]
      refine ⟨Nat.zero_le _, fun b _ => by simp, fun p hp hpb => ?_⟩
      cases p with
      | nil => exact Nat.le_refl _
      | cons x p =>
        refine absurd (List.all_eq_true.2 fun b hb => ?_) h
        obtain ⟨r, hr⟩ := hp
        obtain ⟨rfl, rfl⟩ := List.cons.inj hr
        obtain ⟨r', hr'⟩ := hpb b hb
        subst hr'
        simp

/-! ### Consecutive `if`s -/

theorem sameIfs_spec (start : Entry) : ∀ es : List Entry, sameIfs start es ≤ es.length ∧
    (∀ x ∈ es.take (sameIfs start es), parentIn start x = true ∧ x.node.body = start.node.body) ∧
    ∀ x post, es.drop (sameIfs start es) = x :: post → ¬(parentIn start x = true ∧ x.node.body = start.node.body)
  | [] => ⟨Nat.le_refl _, (fun x hx => nomatch hx), fun x post h => by simp [sameIfs] at h⟩
  | e :: es => by
    obtain ⟨h1, h2, h3⟩ := sameIfs_spec start es
    unfold sameIfs
    by_cases h : (parentIn start e && decide (start.node.body = e.node.body)) = true
    · simp only [h, if_true]
      have h' := Bool.and_eq_true_iff.1 h
      refine ⟨Nat.succ_le_succ h1, fun x hx => ?_, fun x post hx => h3 x post ?_⟩
      · rcases List.mem_cons.1 (by simpa [List.take_succ_cons] using hx) with rfl | hx
        · exact ⟨h'.1, (of_decide_eq_true h'.2).symm⟩
        · exact h2 x hx
      · simpa using hx
    · simp only [h, Bool.false_eq_true, if_false]
      refine ⟨Nat.zero_le _, (fun x hx => nomatch hx), fun x post hx => ?_⟩
      obtain ⟨rfl, rfl⟩ := List.cons.inj (show e :: es = x :: post from hx)
      rintro ⟨ha, hb⟩
      exact h (Bool.and_eq_true_iff.2 ⟨ha, decide_eq_true hb.symm⟩)

theorem groups_spec : ∀ (es : List Entry) (skip : Nat) (g : Group), g ∈ groupsFrom skip es →
    ∃ pre e post, es = pre ++ e :: post ∧ g = ⟨e.sib, e.depth, sameIfs e post + 1⟩ ∧ sameIfs e post ≠ 0 ∧ skip ≤ pre.length
  | [], _, _, h => nomatch h
  | e :: es, skip + 1, g, h => by
    obtain ⟨pre, e', post, rfl, h1, h2, h3⟩ := groups_spec es skip g h
    exact ⟨e :: pre, e', post, rfl, h1, h2, Nat.succ_le_succ h3⟩
  | e :: es, 0, g, h => by
    rcases List.mem_append.1 (show g ∈ (if sameIfs e es = 0 then [] else [⟨e.sib, e.depth, sameIfs e es + 1⟩]) ++
      groupsFrom (sameIfs e es) es from h) with h | h
    · by_cases hz : sameIfs e es = 0
      · rw [if_pos hz] at h; exact nomatch h
      · rw [if_neg hz] at h
        exact ⟨[], e, es, rfl, List.mem_singleton.1 h, hz, Nat.zero_le _⟩
    · obtain ⟨pre, e', post, rfl, h1, h2, _⟩ := groups_spec es _ g h
      exact ⟨e :: pre, e', post, rfl, h1, h2, Nat.zero_le _⟩

/-- `if`s that follow an `if`. -/
def following (sib d : Nat) (e : Block) (next : List Stmt) : List Entry :=
  entriesFrom sib (d + 1) (elifs e) ++ siblingEntries (sib + 1) next

/-- An `if` is so deep in another one. -/
def At : Nat → Stmt → If → Prop
  | 0, st, i => st = i.stmt
  | d + 1, st, i => ∃ t b s, st = .if_ t b [s] ∧ At d s i

theorem entriesOf_eq (sib : Nat) (i : If) : entriesOf sib i = entriesFrom sib 0 (i :: elifs i.orelse) := by
  unfold entriesOf
  by_cases h : hasElse i.orelse = true
  · rw [if_pos h, hasElse_elifs h]
  · rw [if_neg h]

theorem entries_chain (sib : Nat) : ∀ (n : Nat) (i : If) (d : Nat) (rest pre : List Entry) (e : Entry) (post : List Entry),
    (elifs i.orelse).length = n → entriesFrom sib d (i :: elifs i.orelse) ++ rest = pre ++ e :: post →
    (∃ k, e.sib = sib ∧ e.depth = d + k ∧ At k i.stmt e.node ∧ k + 1 + (elifs e.node.orelse).length = 1 + n ∧
      post = entriesFrom sib (e.depth + 1) (elifs e.node.orelse) ++ rest) ∨ (∃ pre', rest = pre' ++ e :: post) := by
  intro n
  induction n with
  | zero =>
    intro i d rest pre e post hn h
    have hn := List.length_eq_zero_iff.1 hn
    cases pre with
    | nil =>
      obtain ⟨rfl, rfl⟩ := List.cons.inj h
      exact .inl ⟨0, rfl, rfl, rfl, by show 0 + 1 + (elifs i.orelse).length = _; rw [hn]; rfl, rfl⟩
    | cons x pre =>
      obtain ⟨rfl, hx⟩ := List.cons.inj h
      rw [hn] at hx
      exact .inr ⟨pre, hx⟩
  | succ n ih =>
    intro i d rest pre e post hn h
    cases pre with
    | nil =>
      obtain ⟨rfl, rfl⟩ := List.cons.inj h
      exact .inl ⟨0, rfl, rfl, rfl, by show 0 + 1 + (elifs i.orelse).length = _; rw [hn], rfl⟩
    | cons x pre =>
      obtain ⟨rfl, hx⟩ := List.cons.inj h
      rcases elifs_cases i.orelse with h' | ⟨t, b, e', he, h'⟩
      · rw [h'] at hn; exact nomatch hn
      · rw [h'] at hn
        rw [h'] at hx
        rcases ih ⟨t, b, e'⟩ (d + 1) rest pre e post (by simpa using hn) hx with ⟨k, h1, h2, h3, h4, h5⟩ | h1
        · refine .inl ⟨k + 1, h1, by omega, ⟨i.test, i.body, .if_ t b e', ?_, h3⟩, by omega, h5⟩
          rw [← he]; rfl
        · exact .inr h1

theorem entries_siblings : ∀ (sibs : List Stmt) (j : Nat) (pre : List Entry) (e : Entry) (post : List Entry),
    siblingEntries j sibs = pre ++ e :: post → ∃ p st, e.sib = j + p ∧ sibs[p]? = some st ∧ At e.depth st e.node ∧
      e.depth + 1 + (elifs e.node.orelse).length = (elifsIn st).length ∧
      post = following e.sib e.depth e.node.orelse (sibs.drop (p + 1))
  | [], j, pre, e, post, h => by cases pre <;> exact nomatch h
  | .simple _ _ :: _, j, pre, e, post, h => by cases pre <;> exact nomatch h
  | .if_ t b o :: next, j, pre, e, post, h => by
    have h : entriesOf j ⟨t, b, o⟩ ++ siblingEntries (j + 1) next = pre ++ e :: post := h
    rw [entriesOf_eq] at h
    rcases entries_chain j _ ⟨t, b, o⟩ 0 _ pre e post rfl h with ⟨k, h1, h2, h3, h4, h5⟩ | ⟨pre', h'⟩
    · rw [Nat.zero_add] at h2
      subst h2
      refine ⟨0, .if_ t b o, h1, rfl, h3, ?_, ?_⟩
      · show _ = (elifs o).length + 1
        have : (elifs (If.orelse ⟨t, b, o⟩)).length = (elifs o).length := rfl
        omega
      · rw [h5]; show _ = entriesFrom e.sib _ _ ++ siblingEntries (e.sib + 1) _; rw [h1]; rfl
    · obtain ⟨p, st, h1, h2, h3, h4, h5⟩ := entries_siblings next (j + 1) pre' e post h'
      exact ⟨p + 1, st, by omega, h2, h3, h4, h5⟩

theorem entriesFrom_sib (sib : Nat) : ∀ (is : List If) (d : Nat) (x : Entry), x ∈ entriesFrom sib d is → x.sib = sib
  | [], _, _, h => nomatch h
  | i :: is, d, x, h => by
    rcases List.mem_cons.1 h with rfl | h
    · rfl
    · exact entriesFrom_sib sib is (d + 1) x h

theorem entriesFrom_length (sib : Nat) : ∀ (is : List If) (d : Nat), (entriesFrom sib d is).length = is.length
  | [], _ => rfl
  | _ :: is, d => congrArg (· + 1) (entriesFrom_length sib is (d + 1))

theorem entriesFrom_append (sib : Nat) : ∀ (is js : List If) (d : Nat),
    entriesFrom sib d (is ++ js) = entriesFrom sib d is ++ entriesFrom sib (d + is.length) js
  | [], _, _ => rfl
  | i :: is, js, d => by
    show _ :: entriesFrom sib (d + 1) (is ++ js) = _ :: (entriesFrom sib (d + 1) is ++ _)
    rw [entriesFrom_append sib is js (d + 1)]
    have : d + 1 + is.length = d + (i :: is).length := by simp only [List.length_cons]; omega
    rw [this]

theorem siblingEntries_sib : ∀ (sibs : List Stmt) (j : Nat) (x : Entry), x ∈ siblingEntries j sibs → j ≤ x.sib
  | [], _, _, h => nomatch h
  | .simple _ _ :: _, _, _, h => nomatch h
  | .if_ t b o :: next, j, x, h => by
    rcases List.mem_append.1 (show x ∈ entriesOf j ⟨t, b, o⟩ ++ siblingEntries (j + 1) next from h) with h | h
    · exact Nat.le_of_eq (entriesFrom_sib j _ 0 x h).symm
    · exact Nat.le_of_succ_le (siblingEntries_sib next (j + 1) x h)

/-- As many as are in the `elif`s. -/
theorem take_elifs {sib d : Nat} {q : List If} {rest : List Entry} {b : Block} : ∀ {n : Nat}, n ≤ q.length →
    (∀ x ∈ (entriesFrom sib d q ++ rest).take n, x.node.body = b) → ∀ i ∈ q.take n, i.body = b := by
  induction q generalizing d with
  | nil => intro n _ _ i hi; simp at hi
  | cons j q ih =>
    intro n hn hb i hi
    cases n with
    | zero => exact nomatch hi
    | succ n =>
      have hb : ∀ x ∈ (⟨sib, d, j⟩ :: (entriesFrom sib (d + 1) q ++ rest) : List Entry).take (n + 1), x.node.body = b := hb
      rw [List.take_succ_cons] at hb hi
      rcases List.mem_cons.1 hi with rfl | hi
      · exact hb _ List.mem_cons_self
      · exact ih (Nat.le_of_succ_le_succ hn) (fun x hx => hb x (List.mem_cons_of_mem _ hx)) i hi

section
variable {S : Type} {L : Lang S}

/-- An `elif` with the same branch as the one before it. -/
theorem join_elif (t t' : Test) (b e : Block) : Same L [.if_ t b [.if_ t' b e]] [.if_ (.or_ t t') b e] := by
  intro s o s'
  rw [runB_single, runB_single]
  rcases eval_cases (L := L) t s with ⟨s1, ht⟩ | ⟨s1, ht⟩ | ⟨x, s1, ht⟩
  · have hor : L.eval (.or_ t t') s = (.ok true, s1) := by simp [Lang.eval, ht]
    rw [run_true ht, run_true hor]
  · have hor : L.eval (.or_ t t') s = L.eval t' s1 := by simp [Lang.eval, ht]
    rw [run_false ht, runB_single, run_if, run_if, hor]
  · have hor : L.eval (.or_ t t') s = (.error x, s1) := by simp [Lang.eval, ht]
    rw [run_raise ht, run_raise hor]

/-- The next one of the neighbours with the same branch, which is always left in another way than by going on. -/
theorem join_next (t t' : Test) (b e next : Block) (hb : ∀ s s', ¬RunB L b s .normal s') :
    Same L (.if_ t b [] :: .if_ t' b e :: next) (.if_ (.or_ t t') b e :: next) := by
  suffices h : Same L ([.if_ t b []] ++ [.if_ t' b e]) [.if_ (.or_ t t') b e] from h.append next
  intro s o s'
  rw [runB_append, runB_single]
  simp only [runB_single]
  rcases eval_cases (L := L) t s with ⟨s1, ht⟩ | ⟨s1, ht⟩ | ⟨x, s1, ht⟩
  · have hor : L.eval (.or_ t t') s = (.ok true, s1) := by simp [Lang.eval, ht]
    rw [run_true ht, run_true hor]
    constructor
    · rintro (⟨s2, h, _⟩ | ⟨h, _⟩)
      · exact absurd ((run_true ht).1 h) (hb _ _)
      · exact h
    · intro h
      exact .inr ⟨h, fun ho => hb _ _ (ho ▸ h)⟩
  · have hor : L.eval (.or_ t t') s = L.eval t' s1 := by simp [Lang.eval, ht]
    have hrhs : Run L (.if_ (.or_ t t') b e) s o s' ↔ Run L (.if_ t' b e) s1 o s' := by rw [run_if, run_if, hor]
    rw [hrhs]
    simp only [run_false ht, runB_nil]
    constructor
    · rintro (⟨s2, ⟨_, rfl⟩, h⟩ | ⟨⟨rfl, rfl⟩, h⟩)
      · exact h
      · exact absurd rfl h
    · intro h; exact .inl ⟨s1, ⟨trivial, rfl⟩, h⟩
  · have hor : L.eval (.or_ t t') s = (.error x, s1) := by simp [Lang.eval, ht]
    rw [run_raise ht, run_raise hor]
    constructor
    · rintro (⟨s2, h, _⟩ | ⟨h, _⟩)
      · exact nomatch ((run_raise ht).1 h).1
      · exact h
    · rintro ⟨rfl, rfl⟩; exact .inr ⟨⟨rfl, rfl⟩, fun h => nomatch h⟩

theorem join_elifs (b : Block) (next : List Stmt) : ∀ (n : Nat) (t : Test) (e : Block), n ≤ (elifs e).length →
    (∀ i ∈ (elifs e).take n, i.body = b) → ∃ p, join t b n e next = some p ∧ Same L (.if_ t b e :: next) p
  | 0, t, e, _, _ => ⟨_, by rw [join], Same.refl _⟩
  | n + 1, t, e, hn, hb => by
    rcases elifs_cases e with h | ⟨t', b', e', rfl, h⟩
    · rw [h] at hn; exact nomatch hn
    · rw [h] at hn hb
      have hb' : b' = b := hb ⟨t', b', e'⟩ (by rw [List.take_succ_cons]; exact List.mem_cons_self)
      subst hb'
      obtain ⟨p, h1, h2⟩ := join_elifs b' next n (.or_ t t') e' (Nat.le_of_succ_le_succ hn)
        (fun i hi => hb i (by rw [List.take_succ_cons]; exact List.mem_cons_of_mem _ hi))
      exact ⟨p, by rw [join]; exact h1, ((join_elif t t' b' e').append next).trans h2⟩

theorem join_seq (b : Block) (hb : ∀ s s', ¬RunB L b s .normal s') : ∀ (n : Nat) (t : Test) (e : Block) (next : List Stmt) (sib d : Nat)
    (t₀ : Test) (b₀ : Block), n ≤ (following sib d e next).length → (∀ x ∈ (following sib d e next).take n, x.node.body = b) →
    noElseBetween (⟨sib, d, ⟨t₀, b₀, e⟩⟩ :: (following sib d e next).take n) →
    ∃ p, join t b n e next = some p ∧ Same L (.if_ t b e :: next) p
  | 0, t, e, next, _, _, _, _, _, _, _ => ⟨_, by rw [join], Same.refl _⟩
  | n + 1, t, e, next, sib, d, t₀, b₀, hn, hbs, hno => by
    rcases elifs_cases e with h | ⟨t', b', e', rfl, h⟩
    · have hf : following sib d e next = siblingEntries (sib + 1) next := by unfold following; rw [h]; rfl
      rw [hf] at hn hbs hno
      match next with
      | [] => exact nomatch hn
      | .simple _ _ :: _ => exact nomatch hn
      | .if_ t' b' e' :: next =>
        have hs : siblingEntries (sib + 1) (.if_ t' b' e' :: next) = ⟨sib + 1, 0, ⟨t', b', e'⟩⟩ :: following (sib + 1) 0 e' next := by
          show entriesOf (sib + 1) ⟨t', b', e'⟩ ++ _ = _
          rw [entriesOf_eq]; rfl
        rw [hs] at hn hbs hno
        rw [List.take_succ_cons] at hbs hno
        have he : e = [] := hno.1 (by show sib ≠ sib + 1; omega)
        subst he
        have hb' : b' = b := hbs ⟨sib + 1, 0, ⟨t', b', e'⟩⟩ List.mem_cons_self
        subst hb'
        obtain ⟨p, h1, h2⟩ := join_seq b' hb n (.or_ t t') e' next (sib + 1) 0 t' b' (Nat.le_of_succ_le_succ hn)
          (fun x hx => hbs x (List.mem_cons_of_mem _ hx)) hno.2
        exact ⟨p, by rw [join]; exact h1, (join_next t t' b' e' next hb).trans h2⟩
    · have hf : following sib d [.if_ t' b' e'] next = ⟨sib, d + 1, ⟨t', b', e'⟩⟩ :: following sib (d + 1) e' next := by
        unfold following; rw [h]; rfl
      rw [hf] at hn hbs hno
      rw [List.take_succ_cons] at hbs hno
      have hb' : b' = b := hbs ⟨sib, d + 1, ⟨t', b', e'⟩⟩ List.mem_cons_self
      subst hb'
      obtain ⟨p, h1, h2⟩ := join_seq b' hb n (.or_ t t') e' next sib (d + 1) t' b' (Nat.le_of_succ_le_succ hn)
        (fun x hx => hbs x (List.mem_cons_of_mem _ hx)) hno.2
      exact ⟨p, by rw [join]; exact h1, ((join_elif t t' b' e').append next).trans h2⟩

theorem joinAt_of (n : Nat) : ∀ (d : Nat) (st : Stmt) (i : If), At d st i →
    (∃ p, join i.test i.body n i.orelse [] = some p ∧ Same L [i.stmt] p) → ∃ p, joinAt n d st = some p ∧ Same L [st] p
  | 0, st, i, hat, h => by
    have hat : st = i.stmt := hat
    subst hat
    exact h
  | d + 1, st, i, ⟨t, b, s, hst, hat⟩, h => by
    subst hst
    obtain ⟨p, h1, h2⟩ := joinAt_of n d s i hat h
    exact ⟨[.if_ t b p], by rw [joinAt, h1]; rfl, h2.orelse⟩

end

end Verif.Py.Branches
