import Verif.Model.CallInstead

/-!
C118: blocks that could be calls of a function that is there already.
-/

namespace Verif.CallInstead

/-! ### What is meant -/

/-- The block is all of the body of the function or what is before a `return` in it. -/
def Callee (f : Func) (b : List Nat) : Prop :=
  ∃ rest : List Stmt, f.body.map (·.id) = b ++ rest.map (·.id) ∧ f.body.drop b.length = rest ∧ (rest = [] ∨ ∃ s r, rest.head? = some s ∧ s.ret = some r)

/-- Statements of blocks in a function are some of its statements, in their order. -/
def Within (parts : List Part) : Prop :=
  ∀ (j : Nat) (p : Part) (g : Func), parts[j]? = some p → p.func = some g → List.Sublist p.stmts (g.body.map (·.id))

/-- What the function returns after the block. -/
def Returned (f : Func) (b : List Nat) (e : E) : Prop := ∃ s r, f.body[b.length]? = some s ∧ s.ret = some r ∧ e ∈ r

/-- After the block `j`, each use of the variable is within an expression whose value the function returns, when it has the name from the function. -/
def Gives (f : Func) (b : List Nat) (avars : List Avar) (i j : Nat) (us : List Use) : Prop :=
  ∀ u ∈ us, ∃ c ∈ u.around, Returned f b (c (renamed avars i j u.name))

/-! ### Proofs -/

theorem possibleCallee_iff {f : Func} {b : List Nat} (h : List.Sublist b (f.body.map (·.id))) : possibleCallee f b = true ↔ Callee f b := by
  have hlen := h.length_le
  rw [List.length_map] at hlen
  unfold possibleCallee Callee
  split
  · rename_i he
    simp only [true_iff]
    have : b = f.body.map (·.id) := h.eq_of_length (by simp [he])
    exact ⟨[], by simp [← this], by simp [he], .inl rfl⟩
  · rename_i he
    simp only [Bool.and_eq_true, decide_eq_true_eq]
    constructor
    · rintro ⟨h1, h2⟩
      refine ⟨f.body.drop b.length, ?_, rfl, .inr ?_⟩
      · have := congrArg (List.map (·.id)) (List.take_append_drop b.length f.body)
        rw [List.map_append, ← h1] at this
        exact this.symm
      · rw [Option.any_eq_true] at h2
        obtain ⟨s, hs, hr⟩ := h2
        obtain ⟨r, hr⟩ := Option.isSome_iff_exists.1 hr
        exact ⟨s, r, by rw [List.head?_drop]; exact hs, hr⟩
    · rintro ⟨rest, h1, h2, h3⟩
      subst h2
      refine ⟨?_, ?_⟩
      · have := congrArg (List.take b.length) h1
        rw [List.take_left, ← List.map_take] at this
        exact this.symm
      · rcases h3 with h3 | ⟨s, r, hs, hr⟩
        · exact absurd (List.drop_eq_nil_iff.1 h3) (by omega)
        · rw [List.head?_drop] at hs
          rw [hs]
          simp [hr]

theorem mem_zipIdx {α : Type} {l : List α} {a : α} {i : Nat} : (a, i) ∈ l.zipIdx ↔ l[i]? = some a := List.mem_zipIdx_iff_getElem?

theorem mem_callees {parts : List Part} {i : Nat} {f : Func} :
    (i, f) ∈ callees parts ↔ ∃ b, parts[i]? = some b ∧ b.func = some f ∧ possibleCallee f b.stmts = true := by
  simp only [callees, List.mem_filterMap]
  constructor
  · rintro ⟨⟨p, j⟩, hp, he⟩
    simp only [Option.bind_eq_some_iff] at he
    obtain ⟨g, hg, he⟩ := he
    split at he
    · rename_i h
      cases he
      exact ⟨p, mem_zipIdx.1 hp, hg, h⟩
    · cases he
  · rintro ⟨b, h1, h2, h3⟩
    exact ⟨(b, i), mem_zipIdx.2 h1, by simp [h2, h3]⟩

theorem zipIdx_increasing {α : Type} : ∀ (l : List α) (n : Nat), (l.zipIdx n).Pairwise fun a b => a.2 < b.2
  | [], _ => by simp
  | a :: l, n => by
    rw [List.zipIdx_cons, List.pairwise_cons]
    refine ⟨fun b hb => ?_, zipIdx_increasing l (n + 1)⟩
    obtain ⟨x, i⟩ := b
    have := (List.mem_zipIdx hb).1
    show n < i
    omega

theorem callees_nodup (parts : List Part) : (callees parts).Pairwise fun a b => a.1 < b.1 := by
  unfold callees
  rw [List.pairwise_filterMap]
  refine (zipIdx_increasing parts 0).imp ?_
  intro a b hab x hx y hy
  simp only [Option.bind_eq_some_iff] at hx hy
  obtain ⟨_, -, hx⟩ := hx
  obtain ⟨_, -, hy⟩ := hy
  split at hx
  · split at hy
    · cases hx; cases hy; exact hab
    · cases hy
  · cases hx

theorem callees_single {parts : List Part} {i : Nat} {f : Func} :
    callees parts = [(i, f)] ↔ (∃ b, parts[i]? = some b ∧ b.func = some f ∧ possibleCallee f b.stmts = true) ∧
      ∀ j p g, parts[j]? = some p → p.func = some g → possibleCallee g p.stmts = true → j = i := by
  constructor
  · intro h
    refine ⟨mem_callees.1 (by simp [h]), fun j p g h1 h2 h3 => ?_⟩
    have := mem_callees.2 ⟨p, h1, h2, h3⟩
    rw [h] at this
    simp at this
    exact this.1
  · rintro ⟨h1, h2⟩
    have hm := mem_callees.2 h1
    have hall : ∀ x ∈ callees parts, x.1 = i := by
      rintro ⟨j, g⟩ hx
      obtain ⟨p, h3, h4, h5⟩ := mem_callees.1 hx
      exact h2 j p g h3 h4 h5
    have hp := callees_nodup parts
    cases hc : callees parts with
    | nil => rw [hc] at hm; cases hm
    | cons a l =>
      cases l with
      | nil => rw [hc] at hm; simp at hm; rw [hm]
      | cons b l =>
        rw [hc] at hp hall
        have h3 := List.rel_of_pairwise_cons hp (List.mem_cons_self (a := b) (l := l))
        have h4 := hall a (by simp)
        have h5 := hall b (by simp)
        omega

theorem mem_others {parts : List Part} {i j : Nat} {p : Part} : (p, j) ∈ others parts i ↔ parts[j]? = some p ∧ j ≠ i := by
  simp [others, List.mem_filter, mem_zipIdx]

theorem mem_returnedBy {f : Func} {b : List Nat} {e : E} : e ∈ returnedBy f b ↔ Returned f b e := by
  unfold returnedBy Returned
  cases h : f.body[b.length]? with
  | none => simp
  | some s =>
    cases h2 : s.ret with
    | none => simp [h2]
    | some r => simp [h2]

theorem returnsAll_iff {f : Func} {b : List Nat} {avars : List Avar} {i j : Nat} {us : List Use} :
    returnsAll (returnedBy f b) i j avars us = true ↔ Gives f b avars i j us := by
  simp only [returnsAll, Gives, List.all_eq_true, returnsUsed, List.any_eq_true, List.contains_iff_mem, mem_returnedBy]

/-- The variable is defined before the block and not assigned to in it. -/
def Modified (p : Part) (v : Var) : Prop := v ∈ p.before ∧ v ∉ p.assigned

theorem onlyModified_iff {p : Part} {v : Var} : onlyModified p v = true ↔ Modified p v := by
  simp [onlyModified, Modified]

/-- The function is called only for what it does: after none of the other blocks a variable is used that is not just modified, and none of the values
used is returned. -/
def ForEffect (parts : List Part) (i : Nat) (f : Func) (b : List Nat) (avars : List Avar) : Prop :=
  ∀ j p, parts[j]? = some p → j ≠ i → ∀ v ∈ p.after, Modified p v.1 ∧ ¬ Gives f b avars i j v.2

/-- The code with calls is short enough: less than four fifths of the tokens, and at most one statement more. -/
def Shorter (parts : List Part) (f : Func) (b : Part) : Prop :=
  5 * (b.tokens + (parts.length - 1) * (3 + f.params + (returnedBy f b.stmts).length)) < 4 * (parts.map (·.tokens)).sum ∧
    b.stmtCount + parts.length - 1 ≤ (parts.map (·.stmtCount)).sum + 1

/-- **C118**: it is reported just if one block, and only one, is the body of a function but for a `return`; the function can be seen from some other block
and is the only definition of its name that reaches one; what differs is in the function a name that is defined in the block or a parameter, and in no
other block something that depends on the block itself; all variables that are used after another block are just modified or all uses are returned;
and if all of them are just modified and none is returned, the code gets shorter. -/
theorem C118_reported {parts : List Part} (hw : Within parts) {avars : Option (List Avar)} {n : Str} {o : Nat} :
    toCall parts avars = some (n, o) ↔
      ∃ i b f as, parts[i]? = some b ∧ b.func = some f ∧ avars = some as ∧ n = f.name ∧ o = (if i = 0 then 1 else 0) ∧
        Callee f b.stmts ∧ (∀ j p g, parts[j]? = some p → p.func = some g → Callee g p.stmts → j = i) ∧
        (∃ j p, parts[j]? = some p ∧ j ≠ i ∧ f.outer ∈ p.scopes) ∧
        (∀ j p, parts[j]? = some p → j ≠ i → ∀ d ∈ p.defs f.name, d = f.id) ∧
        (∀ a ∈ as, (a.isName = true ∨ a.nodes[i]? = some true) ∧ (a.isName = false → ∀ j p, parts[j]? = some p → j ≠ i → a.inside[j]? ≠ some true) ∧
          ∃ ds, a.callee = some ds ∧ Place.elsewhere ∉ ds) ∧
        (∀ j p, parts[j]? = some p → j ≠ i → ∀ v ∈ p.after, Modified p v.1 ∨ Gives f b.stmts as i j v.2) ∧
        (ForEffect parts i f b.stmts as → Shorter parts f b) := by
  have hposs : ∀ (j : Nat) (p : Part) (g : Func), parts[j]? = some p → p.func = some g → (possibleCallee g p.stmts = true ↔ Callee g p.stmts) :=
    fun j p g h1 h2 => possibleCallee_iff (hw j p g h1 h2)
  have hcallable : ∀ i f, callable parts i f = true ↔ (∃ j p, parts[j]? = some p ∧ j ≠ i ∧ f.outer ∈ p.scopes) ∧
      ∀ j p, parts[j]? = some p → j ≠ i → ∀ d ∈ p.defs f.name, d = f.id := by
    intro i f
    simp only [callable, Bool.and_eq_true, List.any_eq_true, Bool.not_eq_true', List.any_eq_false, bne_iff_ne, ne_eq, not_exists, not_and,
      Decidable.not_not, List.contains_iff_mem]
    constructor
    · rintro ⟨⟨⟨p, j⟩, h1, h2⟩, h3⟩
      obtain ⟨h4, h5⟩ := mem_others.1 h1
      exact ⟨⟨j, p, h4, h5, h2⟩, fun j p h6 h7 => h3 (p, j) (mem_others.2 ⟨h6, h7⟩)⟩
    · rintro ⟨⟨j, p, h1, h2, h3⟩, h4⟩
      refine ⟨⟨(p, j), mem_others.2 ⟨h1, h2⟩, h3⟩, ?_⟩
      rintro ⟨p, j⟩ h5
      obtain ⟨h6, h7⟩ := mem_others.1 h5
      exact h4 j p h6 h7
  have hfits : ∀ i as, fits parts i as = true ↔ ∀ a ∈ as, (a.isName = true ∨ a.nodes[i]? = some true) ∧
      (a.isName = false → ∀ j p, parts[j]? = some p → j ≠ i → a.inside[j]? ≠ some true) ∧ ∃ ds, a.callee = some ds ∧ Place.elsewhere ∉ ds := by
    intro i as
    simp only [fits, Bool.and_eq_true, List.all_eq_true, Bool.not_eq_true', List.any_eq_false, Bool.or_eq_true, Option.any_eq_true, bne_iff_ne,
      ne_eq, Bool.and_eq_true, not_and, List.any_eq_true, not_exists]
    have hg : ∀ (o : Option Bool), o.getD false = true ↔ o = some true := by intro o; cases o <;> simp
    simp only [hg]
    constructor
    · rintro ⟨⟨h1, h2⟩, h3⟩ a ha
      refine ⟨h1 a ha, fun h4 j p h5 h6 => h2 a ha (by simp [h4]) (p, j) (mem_others.2 ⟨h5, h6⟩), ?_⟩
      obtain ⟨ds, h4, h5⟩ := h3 a ha
      exact ⟨ds, h4, fun h6 => h5 _ h6 rfl⟩
    · intro h
      refine ⟨⟨fun a ha => (h a ha).1, fun a ha h4 => ?_⟩, fun a ha => ?_⟩
      · rintro ⟨p, j⟩ h5
        obtain ⟨h6, h7⟩ := mem_others.1 h5
        exact (h a ha).2.1 h4 j p h6 h7
      · obtain ⟨ds, h4, h5⟩ := (h a ha).2.2
        exact ⟨ds, h4, fun x hx e => h5 (e ▸ hx)⟩
  have hprov : ∀ i f b as, provides parts i as (returnedBy f b) = true ↔
      ∀ j p, parts[j]? = some p → j ≠ i → ∀ v ∈ p.after, Modified p v.1 ∨ Gives f b as i j v.2 := by
    intro i f b as
    simp only [provides, List.all_eq_true, Bool.or_eq_true, onlyModified_iff, returnsAll_iff]
    constructor
    · intro h j p h1 h2
      exact h (p, j) (mem_others.2 ⟨h1, h2⟩)
    · rintro h ⟨p, j⟩ h1
      obtain ⟨h2, h3⟩ := mem_others.1 h1
      exact h j p h2 h3
  have heff : ∀ i f b as, sideEffect parts i as (returnedBy f b) = true ↔ ForEffect parts i f b as := by
    intro i f b as
    simp only [sideEffect, Bool.and_eq_true, List.all_eq_true, Bool.not_eq_true', List.any_eq_false, List.any_eq_true, not_exists, not_and,
      onlyModified_iff, returnsAll_iff, ForEffect]
    constructor
    · rintro ⟨h1, h2⟩ j p h3 h4 v hv
      exact ⟨h1 (p, j) (mem_others.2 ⟨h3, h4⟩) v hv, h2 (p, j) (mem_others.2 ⟨h3, h4⟩) v hv⟩
    · intro h
      constructor
      · rintro ⟨p, j⟩ h1 v hv
        obtain ⟨h2, h3⟩ := mem_others.1 h1
        exact (h j p h2 h3 v hv).1
      · rintro ⟨p, j⟩ h1 v hv
        obtain ⟨h2, h3⟩ := mem_others.1 h1
        exact (h j p h2 h3 v hv).2
  have hsave : ∀ f b, saves parts f b (returnedBy f b.stmts) = true ↔ Shorter parts f b := by
    intro f b
    simp only [saves, LoopMerge.saves, Shorter, Bool.and_eq_true, decide_eq_true_eq]
    exact and_comm
  constructor
  · intro h
    unfold toCall at h
    split at h
    · rename_i i f hc
      obtain ⟨⟨b, hb, hf, hp⟩, huniq⟩ := callees_single.1 hc
      split at h
      · rename_i h1
        split at h
        · rename_i as b' hb'
          rw [hb] at hb'
          cases hb'
          split at h
          · rename_i h2
            cases h
            rw [Bool.and_eq_true, Bool.and_eq_true] at h2
            obtain ⟨⟨h2, h3⟩, h4⟩ := h2
            obtain ⟨h5, h6⟩ := (hcallable i f).1 h1
            refine ⟨i, b, f, as, hb, hf, rfl, rfl, rfl, (hposs i b f hb hf).1 hp, fun j p g h7 h8 h9 => huniq j p g h7 h8 ((hposs j p g h7 h8).2 h9),
              h5, h6, (hfits i as).1 h2, (hprov i f b.stmts as).1 h3, fun h7 => ?_⟩
            rw [← heff] at h7
            rw [h7] at h4
            rw [← hsave]
            simpa using h4
          · cases h
        · cases h
      · cases h
    · cases h
  · rintro ⟨i, b, f, as, hb, hf, rfl, rfl, rfl, hp, huniq, h5, h6, h2, h3, h4⟩
    have hc : callees parts = [(i, f)] :=
      callees_single.2 ⟨⟨b, hb, hf, (hposs i b f hb hf).2 hp⟩, fun j p g h7 h8 h9 => huniq j p g h7 h8 ((hposs j p g h7 h8).1 h9)⟩
    unfold toCall
    simp only [hc, hb, (hcallable i f).2 ⟨h5, h6⟩, if_true]
    rw [if_pos]
    rw [(hfits i as).2 h2, (hprov i f b.stmts as).2 h3]
    simp only [Bool.true_and, Bool.not_eq_true', Bool.and_eq_false_iff, Bool.not_eq_false']
    by_cases h7 : ForEffect parts i f b.stmts as
    · exact .inr ((hsave f b).2 (h4 h7))
    · refine .inl ?_
      rw [← heff] at h7
      simpa using h7

/-- **C118**: the message is for another block than that of the function. -/
theorem C118_other {parts : List Part} (hw : Within parts) (hk : 2 ≤ parts.length) {avars : Option (List Avar)} {n : Str} {o : Nat}
    (h : toCall parts avars = some (n, o)) :
    ∃ p i b f, parts[o]? = some p ∧ o ≠ i ∧ parts[i]? = some b ∧ b.func = some f ∧ n = f.name ∧ Callee f b.stmts := by
  obtain ⟨i, b, f, as, h1, h2, -, h3, h4, h5, -⟩ := (C118_reported hw).1 h
  have ho : o < parts.length := by rw [h4]; split <;> omega
  exact ⟨parts[o], i, b, f, List.getElem?_eq_getElem ho, by rw [h4]; split <;> omega, h1, h2, h3, h5⟩

/-- **C118**: all uses of a variable that another block assigns to are within expressions that the function returns. -/
theorem C118_provides {parts : List Part} (hw : Within parts) {avars : Option (List Avar)} {n : Str} {o : Nat}
    (h : toCall parts avars = some (n, o)) :
    ∃ i b f as, parts[i]? = some b ∧ b.func = some f ∧ avars = some as ∧ n = f.name ∧
      ∀ j p, parts[j]? = some p → j ≠ i → ∀ v us, (v, us) ∈ p.after → v ∈ p.assigned → Gives f b.stmts as i j us := by
  obtain ⟨i, b, f, as, h1, h2, h3, h4, -, -, -, -, -, -, h5, -⟩ := (C118_reported hw).1 h
  refine ⟨i, b, f, as, h1, h2, h3, h4, fun j p hj hne v us hv ha => ?_⟩
  rcases h5 j p hj hne (v, us) hv with h6 | h6
  · exact absurd ha h6.2
  · exact h6

/-- Names of a scope can be used in it and in what is in it, but those of a class only directly in it. -/
def Sees (isClass : Nat → Bool) (scopes : List Nat) (s : Nat) : Prop := s ∈ scopes ∧ (isClass s = false ∨ scopes.head? = some s)

/-- **C118**: with two blocks, the one that the message is for sees the function if this is no method, and no other definition of its name reaches
it. -/
theorem C118_sees_partial {parts : List Part} (hw : Within parts) (hk : parts.length = 2) {avars : Option (List Avar)} {n : Str} {o : Nat}
    (h : toCall parts avars = some (n, o)) :
    ∃ p i b f, parts[o]? = some p ∧ o ≠ i ∧ parts[i]? = some b ∧ b.func = some f ∧ n = f.name ∧ (∀ d ∈ p.defs n, d = f.id) ∧
      ∀ isClass : Nat → Bool, isClass f.outer = false → Sees isClass p.scopes f.outer := by
  obtain ⟨i, b, f, as, h1, h2, -, h3, h4, -, -, ⟨j, q, hq, hne, hin⟩, h6, -⟩ := (C118_reported hw).1 h
  have hi : i < parts.length := (List.getElem?_eq_some_iff.1 h1).1
  have hj : j < parts.length := (List.getElem?_eq_some_iff.1 hq).1
  have ho : o = j := by rw [h4]; split <;> omega
  subst ho
  exact ⟨q, i, b, f, hq, hne, h1, h2, h3, h3 ▸ h6 o q hq hne, fun _ hc => ⟨hin, .inl hc⟩⟩

/-! ### Examples -/

/-- A name by itself and in a sum with another. -/
def used (x : Str) (others : List (Str → E)) : Use := ⟨x, .name :: others⟩

/-- `def f(a): x = a + 1; y = x * 2; return y` in the module. -/
def double : Func := ⟨100, "f".toList, [⟨10, none⟩, ⟨11, none⟩, ⟨12, some [.name "y".toList]⟩], 0, 1⟩

/-- The two statements in the function. -/
def inside : Part := ⟨[10, 11], some double, [1, 0], fun _ => [100], [], [("x".toList, 1), ("y".toList, 1)], [(("y".toList, 1), [used "y".toList []])], 9, 2⟩

/-- `x = 4 + 1; z = x * 2` in another function, after which `z` is used. -/
def outside : Part := ⟨[20, 21], none, [2, 0], fun _ => [100], [], [("x".toList, 2), ("z".toList, 2)], [(("z".toList, 2), [used "z".toList []])], 9, 2⟩

/-- `a` and `4` differ, and so do `y` and `z`. -/
def differences : List Avar :=
  [⟨false, [none, none], [true, false], [false, false], some [.param]⟩,
   ⟨true, [some "y".toList, some "z".toList], [true, true], [false, false], some [.block]⟩]

example : toCall [inside, outside] (some differences) = some ("f".toList, 1) := by decide +kernel

theorem within_example : Within [inside, outside] := by
  intro j p g hj hg
  have hm := List.mem_of_getElem? hj
  simp only [List.mem_cons, List.not_mem_nil, or_false] at hm
  rcases hm with rfl | rfl
  · simp only [inside, Option.some.injEq] at hg
    subst hg
    exact .cons_cons _ (.cons_cons _ (.cons _ .slnil))
  · cases hg

example : ∃ p i b f, [inside, outside][1]? = some p ∧ 1 ≠ i ∧ [inside, outside][i]? = some b ∧ b.func = some f ∧ "f".toList = f.name ∧
    Callee f b.stmts := C118_other within_example (by decide) (avars := some differences) (by decide +kernel)

example : ∃ p i b f, [inside, outside][1]? = some p ∧ 1 ≠ i ∧ [inside, outside][i]? = some b ∧ b.func = some f ∧ "f".toList = f.name ∧
    (∀ d ∈ p.defs "f".toList, d = f.id) ∧ ∀ isClass : Nat → Bool, isClass f.outer = false → Sees isClass p.scopes f.outer :=
  C118_sees_partial within_example rfl (avars := some differences) (by decide +kernel)

/-- It is not reported if `x` is used after, if the name of the function may mean something else, if what differs is defined elsewhere, if the block
is not all before the `return`, or if there are two such functions. -/
example :
    toCall [inside, { outside with after := [(("x".toList, 2), [used "x".toList []])] }] (some differences) = none ∧
    toCall [inside, { outside with defs := fun _ => [100, 101] }] (some differences) = none ∧
    toCall [inside, outside] (some [⟨true, [some "y".toList, some "z".toList], [true, true], [false, false], some [.block, .elsewhere]⟩]) = none ∧
    toCall [{ inside with stmts := [11] }, outside] (some differences) = none ∧
    toCall [inside, { outside with func := some double, stmts := [10, 11] }] (some differences) = none := by decide +kernel

/-- What is called only for its effects has to be long enough. -/
example :
    toCall [{ inside with after := [], tokens := 20 }, { outside with after := [], tokens := 20 }] (some differences) = some ("f".toList, 1) ∧
    toCall [{ inside with after := [], tokens := 8 }, { outside with after := [], tokens := 8 }] (some differences) = none := by decide +kernel

/-- `def f(a): x = a + 1; y = x * 2; return x + y` -/
def sums : Func := { double with body := [⟨10, none⟩, ⟨11, none⟩, ⟨12, some [.op 0 (.name "x".toList) (.name "y".toList)]⟩] }

/-! ### Where the code does not do what is said -/

/-- The function is in another one, and so is the last block; the first block, which the message is for, does not see it. -/
theorem C118_sees_counterexample :
    toCall [{ outside with scopes := [5, 0], defs := fun _ => [] }, { inside with func := some { double with outer := 2 }, scopes := [1, 2, 0] }, outside]
        (some [⟨true, [some "z".toList, some "y".toList, some "z".toList], [true, true, true], [false, false, false], some [.block]⟩]) =
      some ("f".toList, 0) ∧
    ∀ isClass, ¬ Sees isClass [5, 0] 2 := ⟨by decide +kernel, fun _ h => by have := h.1; revert this; decide⟩

/-- The function is a method, and the block is in another method of the class. -/
theorem C118_method_counterexample :
    toCall [{ inside with func := some { double with outer := 2 }, scopes := [1, 2, 0] }, { outside with scopes := [3, 2, 0] }] (some differences) =
      some ("f".toList, 1) ∧
    ¬ Sees (· == 2) [3, 2, 0] 2 := ⟨by decide +kernel, fun h => by rcases h.2 with h | h <;> revert h <;> decide⟩

/-- The block is before the definition of the function: no definition of the name reaches it. -/
theorem C118_early_counterexample :
    toCall [inside, { outside with scopes := [0], defs := fun _ => [] }] (some differences) = some ("f".toList, 1) := by decide +kernel

/-- The value of an expression. -/
def value (env : Str → Nat) : E → Nat
  | .name x => env x
  | .const n => n
  | .op _ a b => value env a + value env b

/-- `x = 4 + 1; y = x * 2; y = 100; print(x + y)`: only `x` is used after the block, in an expression that the function returns, although `y` is not what
it was. -/
theorem C118_changed_counterexample :
    toCall [{ inside with func := some sums },
        { outside with assigned := [("x".toList, 2), ("y".toList, 2)], after := [(("x".toList, 2), [used "x".toList [fun x => .op 0 (.name x) (.name "y".toList)]])] }]
        (some [⟨false, [none, none], [true, false], [false, false], some [.param]⟩]) = some ("f".toList, 1) ∧
      value (fun x => if x = "x".toList then 5 else 10) (.op 0 (.name "x".toList) (.name "y".toList)) ≠
        value (fun x => if x = "x".toList then 5 else 100) (.op 0 (.name "x".toList) (.name "y".toList)) := by decide +kernel

end Verif.CallInstead
