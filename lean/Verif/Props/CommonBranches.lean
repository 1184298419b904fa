import Verif.Lemmas.CommonBranches

/-!
**C85**: code that is moved after an `if`. **C86**: code that is moved before an `if`, or in place of it. **C87**: `elif`s that are
joined. **C88**: `if`s that are joined. **C89**: `if`s that are untwisted.
-/

namespace Verif.Py.Branches

section
variable {S : Type} {L : Lang S}

/-! ### The branches that are compared -/

/-- When there is an `else`, the `if` is what the compared branches make up. -/
theorem C85_branches {i : If} (h : (extractFromElif i).1 = true) :
    [i.stmt] = chain (extractFromElif i).2 (elseOf (extractFromElif i).2) ∧
    getBodies (extractFromElif i).2 = (extractFromElif i).2.map (·.body) ++ [elseOf (extractFromElif i).2] ∧
    (extractFromElif i).2.head? = some i := by
  obtain ⟨q, h1, h2, h3⟩ := extract_true h
  rw [h1]
  exact ⟨chain_prefix q i h2, getBodies_eq q i h3, rfl⟩

theorem bodies_of {i : If} (h : (extractFromElif i).1 = true) : ∃ bs, getBodies (extractFromElif i).2 = i.body :: bs ∧
    (∀ j ∈ (extractFromElif i).2, j.body ∈ i.body :: bs) ∧ elseOf (extractFromElif i).2 ∈ i.body :: bs := by
  obtain ⟨q, h1, h2, h3⟩ := extract_true h
  rw [h1, getBodies_eq q i h3]
  refine ⟨q.map (·.body) ++ [elseOf (i :: q)], rfl, fun j hj => ?_, ?_⟩
  · exact List.mem_append_left [elseOf (i :: q)] (List.mem_map.2 ⟨j, hj, rfl⟩)
  · exact List.mem_append_right ((i :: q).map (·.body)) List.mem_cons_self

/-! ### What is reported -/

/-- All branches begin with the same `k` statements. -/
def Begin (branches : List Block) (k : Nat) : Prop := ∃ p : Block, p.length = k ∧ ∀ b ∈ branches, p <+: b

/-- All branches end with the same `k` statements. -/
def End (branches : List Block) (k : Nat) : Prop := ∃ p : Block, p.length = k ∧ ∀ b ∈ branches, p <:+ b

/-- The greatest number with a property. -/
def Greatest (P : Nat → Prop) (k : Nat) : Prop := P k ∧ ∀ m, P m → m ≤ k

theorem Greatest.unique {P : Nat → Prop} {k m : Nat} (h : Greatest P k) (h' : Greatest P m) : k = m :=
  Nat.le_antisymm (h'.2 k h.1) (h.2 m h'.1)

theorem commonPrefix_greatest (ref : Block) (compare : List Block) : Greatest (Begin (ref :: compare)) (commonPrefix ref compare) := by
  obtain ⟨h1, h2, h3⟩ := commonPrefix_spec ref compare
  refine ⟨⟨ref.take (commonPrefix ref compare), by rw [List.length_take]; omega, fun b hb => ?_⟩, ?_⟩
  · rcases List.mem_cons.1 hb with rfl | hb
    · exact List.take_prefix _ _
    · exact h2 b hb
  · rintro m ⟨p, rfl, hp⟩
    exact h3 p (hp _ List.mem_cons_self) fun b hb => hp b (List.mem_cons_of_mem _ hb)

theorem end_iff (branches : List Block) (k : Nat) : End branches k ↔ Begin (branches.map List.reverse) k := by
  constructor
  · rintro ⟨p, hp, h⟩
    refine ⟨p.reverse, by simpa using hp, fun b hb => ?_⟩
    obtain ⟨c, hc, rfl⟩ := List.mem_map.1 hb
    exact List.reverse_prefix.2 (h c hc)
  · rintro ⟨p, hp, h⟩
    refine ⟨p.reverse, by simpa using hp, fun b hb => ?_⟩
    have := h _ (List.mem_map.2 ⟨b, hb, rfl⟩)
    rw [← List.reverse_reverse p] at this
    exact List.reverse_prefix.1 this

theorem difference_true {ref : Block} {compare : List Block} (hne : ∀ b ∈ ref :: compare, b ≠ []) :
    ∃ n, stmtsDifference (ref :: compare) true = some n ∧ Greatest (Begin (ref :: compare)) n := by
  have : ((ref :: compare).any List.isEmpty) = false := by
    rw [Bool.eq_false_iff]
    intro h
    obtain ⟨b, hb, hb'⟩ := List.any_eq_true.1 h
    exact hne b hb (List.isEmpty_iff.1 hb')
  refine ⟨_, ?_, commonPrefix_greatest ref compare⟩
  unfold stmtsDifference
  simp only [this, Bool.false_eq_true, if_false, if_true]

theorem difference_false {ref : Block} {compare : List Block} (hne : ∀ b ∈ ref :: compare, b ≠ []) :
    ∃ n, stmtsDifference (ref :: compare) false = some n ∧ Greatest (End (ref :: compare)) n := by
  have : ((ref :: compare).any List.isEmpty) = false := by
    rw [Bool.eq_false_iff]
    intro h
    obtain ⟨b, hb, hb'⟩ := List.any_eq_true.1 h
    exact hne b hb (List.isEmpty_iff.1 hb')
  refine ⟨commonPrefix ref.reverse (compare.map List.reverse), ?_, ?_⟩
  · unfold stmtsDifference
    simp only [this, Bool.false_eq_true, if_false]
  · obtain ⟨h1, h2⟩ := commonPrefix_greatest ref.reverse (compare.map List.reverse)
    exact ⟨(end_iff (ref :: compare) _).2 h1, fun m hm => h2 m ((end_iff (ref :: compare) m).1 hm)⟩

/-- The last statement of the first branch is a `return`. -/
def EndsInReturn (branches : List Block) : Prop :=
  ∃ b s, branches.head? = some b ∧ b.getLast? = some s ∧ isReturn s = true

theorem endsInReturn_iff (branches : List Block) :
    (((branches.head?.bind List.getLast?).map isReturn).getD false) = true ↔ EndsInReturn branches := by
  unfold EndsInReturn
  cases branches.head? with
  | none => simp
  | some b => cases hb : b.getLast? <;> simp [hb]

/-- A block that all of the branches begin with, and that is one of them. -/
theorem length_eq_iff {branches : List Block} {n : Nat} (hn : Greatest (Begin branches) n) (b : Block) (hb : b ∈ branches) :
    n = b.length ↔ ∀ c ∈ branches, b <+: c := by
  constructor
  · rintro h c hc
    obtain ⟨p, hp, hpb⟩ := hn.1
    have : p = b := (hpb b hb).eq_of_length (by omega)
    exact this ▸ hpb c hc
  · intro h
    obtain ⟨p, hp, hpb⟩ := hn.1
    have h1 := hn.2 b.length ⟨b, rfl, h⟩
    have h2 := (hpb b hb).length_le
    omega

theorem all_equal_iff {ref : Block} {compare : List Block} {n : Nat} (hn : Greatest (Begin (ref :: compare)) n) :
    (∀ b ∈ ref :: compare, n = b.length) ↔ ∀ b ∈ ref :: compare, b = ref := by
  constructor
  · intro h b hb
    have h1 := (length_eq_iff hn b hb).1 (h b hb) ref List.mem_cons_self
    exact h1.eq_of_length (by rw [← h b hb, ← h ref List.mem_cons_self])
  · intro h b hb
    exact (length_eq_iff hn b hb).2 fun c hc => by rw [h b hb, h c hc]; exact List.prefix_refl _

/-- **C85** (what is reported). Of branches none of which is empty: that they are identical, or how many statements they have in common
at the beginning and at the end. The end is not reported if one of the branches is what all others begin with, and if it is a single
`return`. -/
theorem C85_exact (ref : Block) (compare : List Block) (hne : ∀ b ∈ ref :: compare, b ≠ []) :
    ∃ ms, identicalBranches (ref :: compare) = some ms ∧
      (Msg.identical ∈ ms ↔ ∀ b ∈ compare, b = ref) ∧
      (∀ k, Msg.before k ∈ ms ↔ 1 ≤ k ∧ Greatest (Begin (ref :: compare)) k ∧ ¬∀ b ∈ compare, b = ref) ∧
      (∀ k, Msg.after k ∈ ms ↔ 1 ≤ k ∧ Greatest (End (ref :: compare)) k ∧ ¬(∃ b ∈ ref :: compare, ∀ c ∈ ref :: compare, b <+: c) ∧
        ¬(k = 1 ∧ EndsInReturn (ref :: compare))) := by
  obtain ⟨n, hn, gn⟩ := difference_true hne
  obtain ⟨m, hm, gm⟩ := difference_false hne
  have hall : (∀ b ∈ ref :: compare, b = ref) ↔ ∀ b ∈ compare, b = ref :=
    ⟨fun h b hb => h b (List.mem_cons_of_mem _ hb), fun h b hb => (List.mem_cons.1 hb).elim id (h b)⟩
  have huniq : ∀ k, Greatest (Begin (ref :: compare)) k ↔ k = n := fun k => ⟨fun h => h.unique gn, fun h => h ▸ gn⟩
  have huniq' : ∀ k, Greatest (End (ref :: compare)) k ↔ k = m := fun k => ⟨fun h => h.unique gm, fun h => h ▸ gm⟩
  have hafter : ∃ ms, identicalAfter (ref :: compare) = some ms ∧ Msg.identical ∉ ms ∧ (∀ k, Msg.before k ∉ ms) ∧
      ∀ k, Msg.after k ∈ ms ↔ k = m ∧ 1 ≤ m ∧ ¬(m = 1 ∧ EndsInReturn (ref :: compare)) := by
    unfold identicalAfter
    rw [hm]
    by_cases h1 : 1 ≤ m
    · simp only [h1, if_true]
      by_cases h2 : m = 1 ∧ EndsInReturn (ref :: compare)
      · rw [if_pos ⟨h2.1, (endsInReturn_iff _).2 h2.2⟩]
        exact ⟨_, rfl, by simp, by simp, fun k => ⟨(fun h => nomatch h), fun h => absurd h2 h.2.2⟩⟩
      · rw [if_neg (fun h => h2 ⟨h.1, (endsInReturn_iff _).1 h.2⟩)]
        refine ⟨_, rfl, by simp, by simp, fun k => ?_⟩
        simp only [List.mem_singleton, Msg.after.injEq]
        exact ⟨fun h => ⟨h, trivial, h2⟩, fun h => h.1⟩
    · simp only [h1, if_false]
      exact ⟨_, rfl, by simp, by simp, fun k => ⟨(fun h => nomatch h), fun h => nomatch h.2.1⟩⟩
  have hal : (ref :: compare).all (fun b => decide (n = b.length)) = true ↔ ∀ b ∈ compare, b = ref := by
    rw [← hall, ← all_equal_iff gn, List.all_eq_true]
    exact ⟨fun h b hb => of_decide_eq_true (h b hb), fun h b hb => decide_eq_true (h b hb)⟩
  have han : (ref :: compare).any (fun b => decide (n = b.length)) = true ↔ ∃ b ∈ ref :: compare, ∀ c ∈ ref :: compare, b <+: c := by
    rw [List.any_eq_true]
    exact ⟨fun ⟨b, hb, h⟩ => ⟨b, hb, (length_eq_iff gn b hb).1 (of_decide_eq_true h)⟩,
      fun ⟨b, hb, h⟩ => ⟨b, hb, decide_eq_true ((length_eq_iff gn b hb).2 h)⟩⟩
  have hpos : (∃ b ∈ ref :: compare, ∀ c ∈ ref :: compare, b <+: c) → 1 ≤ n := by
    rintro ⟨b, hb, h⟩
    rw [(length_eq_iff gn b hb).2 h]
    exact List.length_pos_iff.2 (hne b hb)
  have hsame : (∀ b ∈ compare, b = ref) → ∃ b ∈ ref :: compare, ∀ c ∈ ref :: compare, b <+: c := fun h =>
    ⟨ref, List.mem_cons_self, fun c hc => by rw [hall.2 h c hc]; exact List.prefix_refl _⟩
  obtain ⟨ms, ha, ha1, ha2, ha3⟩ := hafter
  unfold identicalBranches
  rw [hn]
  by_cases h1 : 1 ≤ n
  · simp only [h1, if_true]
    by_cases h2 : ∀ b ∈ compare, b = ref
    · rw [if_pos (hal.2 h2)]
      refine ⟨_, rfl, ?_, fun k => ?_, fun k => ?_⟩
      · exact ⟨fun _ => h2, fun _ => List.mem_cons_self⟩
      · simp only [List.mem_singleton, reduceCtorEq, false_iff]
        rintro ⟨_, _, h⟩; exact h h2
      · simp only [List.mem_singleton, reduceCtorEq, false_iff]
        rintro ⟨_, _, h, _⟩; exact h (hsame h2)
    · rw [if_neg (fun h => h2 (hal.1 h))]
      by_cases h3 : ∃ b ∈ ref :: compare, ∀ c ∈ ref :: compare, b <+: c
      · rw [if_pos (han.2 h3)]
        refine ⟨_, rfl, ?_, fun k => ?_, fun k => ?_⟩
        · simp only [List.mem_singleton, reduceCtorEq, false_iff]; exact h2
        · simp only [List.mem_singleton, Msg.before.injEq, huniq]
          exact ⟨fun h => ⟨h ▸ h1, h, h2⟩, fun h => h.2.1⟩
        · simp only [List.mem_singleton, reduceCtorEq, false_iff]
          rintro ⟨_, _, h, _⟩; exact h h3
      · rw [if_neg (fun h => h3 (han.1 h)), ha]
        refine ⟨_, rfl, ?_, fun k => ?_, fun k => ?_⟩
        · simp only [List.mem_cons, reduceCtorEq, false_or, ha1, false_iff]; exact h2
        · simp only [List.mem_cons, Msg.before.injEq, ha2, or_false, huniq]
          exact ⟨fun h => ⟨h ▸ h1, h, h2⟩, fun h => h.2.1⟩
        · rw [List.mem_cons, ha3, huniq']
          simp only [reduceCtorEq, false_or]
          exact ⟨fun ⟨ha, hb, hc⟩ => ⟨ha ▸ hb, ha, h3, ha ▸ hc⟩, fun ⟨ha, hb, _, hc⟩ => ⟨hb, hb ▸ ha, hb ▸ hc⟩⟩
  · simp only [h1, if_false]
    rw [ha]
    have h3 : ¬∃ b ∈ ref :: compare, ∀ c ∈ ref :: compare, b <+: c := fun h => h1 (hpos h)
    have h2 : ¬∀ b ∈ compare, b = ref := fun h => h3 (hsame h)
    refine ⟨_, rfl, ?_, fun k => ?_, fun k => ?_⟩
    · simp only [ha1, false_iff]; exact h2
    · simp only [ha2, false_iff, huniq]
      rintro ⟨ha, hb, _⟩; exact h1 (hb ▸ ha)
    · rw [ha3, huniq']
      exact ⟨fun ⟨ha, hb, hc⟩ => ⟨ha ▸ hb, ha, h3, ha ▸ hc⟩, fun ⟨ha, hb, _, hc⟩ => ⟨hb, hb ▸ ha, hb ▸ hc⟩⟩

/-- The branches, of which none is empty. -/
theorem reported {i : If} {ms : List Msg} {m : Msg} (h : checkBranches i = some ms) (hm : m ∈ ms) :
    (extractFromElif i).1 = true ∧ identicalBranches (getBodies (extractFromElif i).2) = some ms := by
  unfold checkBranches at h
  by_cases he : (extractFromElif i).1 = true
  · rw [if_pos he] at h; exact ⟨he, h⟩
  · rw [if_neg he] at h
    obtain rfl := Option.some.inj h
    exact nomatch hm

theorem not_empty {ref : Block} {compare : List Block} {ms : List Msg} (h : identicalBranches (ref :: compare) = some ms) :
    ∀ b ∈ ref :: compare, b ≠ [] := by
  intro b hb hbe
  have : (ref :: compare).any List.isEmpty = true := List.any_eq_true.2 ⟨b, hb, by rw [hbe]; rfl⟩
  have hd : stmtsDifference (ref :: compare) true = none := by unfold stmtsDifference; simp only [this, if_true]
  unfold identicalBranches at h
  rw [hd] at h
  exact nomatch h

/-- No exception is raised: no branch of an `if` is empty, apart from an `else` that is not there. -/
theorem C85_no_exception {i : If} (h : (extractFromElif i).1 = true → ∀ b ∈ getBodies (extractFromElif i).2, b ≠ []) :
    ∃ ms, checkBranches i = some ms := by
  unfold checkBranches
  by_cases he : (extractFromElif i).1 = true
  · rw [if_pos he]
    obtain ⟨bs, hbs, _⟩ := bodies_of he
    rw [hbs]
    obtain ⟨ms, hms, _⟩ := C85_exact i.body bs (hbs ▸ h he)
    exact ⟨ms, hms⟩
  · rw [if_neg he]; exact ⟨_, rfl⟩

/-! ### C85: code that is moved after an `if` -/

/-- **C85**. Moving the code that is reported as common to the ends of all branches after the `if` changes nothing, whatever the
conditions and the statements do. -/
theorem C85_after {i : If} {ms : List Msg} {k : Nat} (h : checkBranches i = some ms) (hk : .after k ∈ ms) :
    Same L [i.stmt] (suggested i (.after k)) := by
  obtain ⟨he, h⟩ := reported h hk
  obtain ⟨bs, hbs, hb1, hb2⟩ := bodies_of he
  rw [hbs] at h
  obtain ⟨ms', hms', _, _, hafter⟩ := C85_exact i.body bs (not_empty h)
  obtain rfl : ms' = ms := Option.some.inj (hms'.symm.trans h)
  obtain ⟨_, ⟨⟨p, hp, hpb⟩, _⟩, _⟩ := (hafter k).1 hk
  have key : ∀ b ∈ i.body :: bs, b = b.take (b.length - k) ++ p := by
    intro b hb
    obtain ⟨r, hr⟩ := hpb b hb
    rw [← hr, ← hp]; simp
  have hlast : p = i.body.drop (i.body.length - k) := by
    obtain ⟨r, hr⟩ := hpb i.body List.mem_cons_self
    rw [← hr, ← hp]; simp
  rw [(C85_branches he).1]
  show Same L _ (chain (mapBodies (fun b => b.take (b.length - k)) _) _ ++ _)
  rw [← hlast]
  exact chain_after (fun b => b.take (b.length - k)) p _ _ (fun j hj => key _ (hb1 j hj)) (key _ hb2)

/-! ### C86: code that is moved before an `if`, or in place of it

Full statement: replacing an `if` by a branch, when all branches are reported as identical, changes nothing, and moving the code that
is reported as common to the beginnings of all branches before the `if` changes nothing. It is false: see the counterexamples. -/

/-- **C86** (partial). Only a branch is left of an `if` with identical branches. Missing: conditions that have effects or raise. -/
theorem C86_identical_partial {i : If} {ms : List Msg} (h : checkBranches i = some ms) (hk : .identical ∈ ms) (s : S)
    (hpure : ∀ j ∈ (extractFromElif i).2, ∃ v, L.eval j.test s = (.ok v, s)) (o : Out) (s' : S) :
    RunB L [i.stmt] s o s' ↔ RunB L (suggested i .identical) s o s' := by
  obtain ⟨he, h⟩ := reported h hk
  obtain ⟨bs, hbs, hb1, hb2⟩ := bodies_of he
  rw [hbs] at h
  obtain ⟨ms', hms', hid, _⟩ := C85_exact i.body bs (not_empty h)
  obtain rfl : ms' = ms := Option.some.inj (hms'.symm.trans h)
  have heq := hid.1 hk
  have key : ∀ b ∈ i.body :: bs, b = i.body := fun b hb => (List.mem_cons.1 hb).elim id (heq b)
  rw [(C85_branches he).1]
  exact chain_same i.body s _ _ (fun j hj => key _ (hb1 j hj)) (key _ hb2) hpure o s'

/-- **C86** (partial). Code is moved before an `if`. Missing: conditions that have effects or raise, and those whose truth value
changes when the code is executed. -/
theorem C86_before_partial {i : If} {ms : List Msg} {k : Nat} (h : checkBranches i = some ms) (hk : .before k ∈ ms) (s : S)
    (hkept : ∀ j ∈ (extractFromElif i).2, Kept L (i.body.take k) s j.test) (o : Out) (s' : S) :
    RunB L [i.stmt] s o s' ↔ RunB L (suggested i (.before k)) s o s' := by
  obtain ⟨he, h⟩ := reported h hk
  obtain ⟨bs, hbs, hb1, hb2⟩ := bodies_of he
  rw [hbs] at h
  obtain ⟨ms', hms', _, hbefore, _⟩ := C85_exact i.body bs (not_empty h)
  obtain rfl : ms' = ms := Option.some.inj (hms'.symm.trans h)
  obtain ⟨_, ⟨⟨p, hp, hpb⟩, _⟩, _⟩ := (hbefore k).1 hk
  have hfirst : i.body.take k = p := by
    obtain ⟨r, hr⟩ := hpb i.body List.mem_cons_self
    rw [← hr, ← hp]; simp
  have key : ∀ b ∈ i.body :: bs, b = i.body.take k ++ b.drop k := by
    intro b hb
    obtain ⟨r, hr⟩ := hpb b hb
    rw [hfirst, ← hr, ← hp]; simp
  rw [(C85_branches he).1]
  exact chain_before (List.drop k) (i.body.take k) s _ _ (fun j hj => key _ (hb1 j hj)) (key _ hb2) hkept o s'

/-- **C85**: unless the body of the `if` is another `if` and nothing else, all of the `elif`s are looked at, and there is an `else`
exactly if the last one of them has one. -/
theorem C85_all_branches {i : If} (h : ∀ t b e, i.body ≠ [.if_ t b e]) :
    extractFromElif i = (hasElse (elseOf (i :: elifs i.orelse)), i :: elifs i.orelse) := by
  unfold extractFromElif
  by_cases he : hasElse i.orelse = true
  · rw [if_pos he, hasElse_elifs he]
    simp only [elseOf, he]
  · rw [if_neg he]
    have hn : nestedIfs i.body = 0 := by
      cases hb : i.body with
      | nil => simp [nestedIfs]
      | cons s b =>
        cases b with
        | cons s' b => simp [nestedIfs]
        | nil =>
          cases s with
          | simple l r => simp [nestedIfs, nestedIn]
          | if_ t b e => exact absurd hb (h t b e)
    simp only [hn, true_or, if_true]

/-! ### C87: `elif`s that are joined -/

/-- **C87**. The conditions of consecutive `elif`s that are reported to have identical branches can be joined by `or`, whatever the
conditions and the statements do. -/
theorem C87_elifs {prev : Option Stmt} {i : If} {next : List Stmt} {gs : List Group} {g : Group}
    (h : identicalSeqIfs prev i next = (true, gs)) (hg : g ∈ gs) :
    g.sib = 0 ∧ 2 ≤ g.count ∧ ∃ p, joinAt (g.count - 1) g.depth i.stmt = some p ∧ Same L [i.stmt] p := by
  unfold identicalSeqIfs at h
  by_cases he : (extractFromElif i).1 = true
  · rw [if_pos he] at h
    obtain rfl := (Prod.mk.inj h).2
    obtain ⟨q, h1, ⟨r, hr⟩, _⟩ := extract_true he
    rw [h1] at hg
    obtain ⟨pre, e, post, hes, rfl, hz, _⟩ := groups_spec _ _ g hg
    have hall : entriesFrom 0 0 (i :: elifs i.orelse) ++ [] = pre ++ e :: (post ++ entriesFrom 0 (0 + (i :: q).length) r) := by
      rw [List.append_nil, ← hr, ← List.cons_append, entriesFrom_append, hes]; simp
    rcases entries_chain 0 _ i 0 [] pre e _ rfl hall with ⟨k, hs, hd, hat, _, hpost⟩ | ⟨pre', h'⟩
    · obtain ⟨hle, hbody, _⟩ := sameIfs_spec e post
      refine ⟨hs, by show 2 ≤ sameIfs e post + 1; omega, ?_⟩
      have hd : e.depth = k := by omega
      show ∃ p, joinAt (sameIfs e post + 1 - 1) e.depth i.stmt = some p ∧ _
      rw [Nat.add_sub_cancel, hd]
      have hlen : sameIfs e post ≤ (elifs e.node.orelse).length := by
        have := congrArg List.length hpost
        rw [List.append_nil, entriesFrom_length, List.length_append] at this
        omega
      have hbodies : ∀ j ∈ (elifs e.node.orelse).take (sameIfs e post), j.body = e.node.body := by
        refine take_elifs (sib := 0) (d := e.depth + 1) (rest := []) hlen fun x hx => ?_
        rw [← hpost, List.take_append_of_le_length hle] at hx
        exact (hbody x hx).2
      exact joinAt_of _ k i.stmt e.node hat (join_elifs e.node.body [] _ e.node.test e.node.orelse hlen hbodies)
    · cases pre' <;> exact nomatch h'
  · rw [if_neg he] at h
    cases hs : seqIfs prev i next with
    | none => rw [hs] at h; exact nomatch (Prod.mk.inj h).1
    | some es => rw [hs] at h; exact nomatch (Prod.mk.inj h).1

/-! ### C88: `if`s that are joined

Full statement: the conditions of consecutive `if`s that are reported to have identical branches can be joined by `or`. It is
false: see the counterexamples. -/

theorem seqIfs_eq {prev : Option Stmt} {i : If} {next : List Stmt} {es : List Entry} (he : (extractFromElif i).1 = false)
    (h : seqIfs prev i next = some es) : es = siblingEntries 0 (i.stmt :: next) := by
  have : es = entriesFrom 0 0 (extractFromElif i).2 ++ siblingEntries 1 next := by
    unfold seqIfs at h
    split at h
    · split at h
      · exact (Option.some.inj h).symm
      · exact nomatch h
    · exact (Option.some.inj h).symm
  rw [this, extract_false he]
  show _ = entriesOf 0 i ++ siblingEntries 1 next
  rw [entriesOf_eq]

theorem seq_cases {prev : Option Stmt} {i : If} {next : List Stmt} {gs : List Group} {g : Group}
    (h : identicalSeqIfs prev i next = (false, gs)) (hg : g ∈ gs) :
    seqIfs prev i next = some (siblingEntries 0 (i.stmt :: next)) ∧ g ∈ groupsFrom 0 (siblingEntries 0 (i.stmt :: next)) := by
  unfold identicalSeqIfs at h
  by_cases he : (extractFromElif i).1 = true
  · rw [if_pos he] at h; exact nomatch (Prod.mk.inj h).1
  · rw [if_neg he] at h
    cases hs : seqIfs prev i next with
    | none => rw [hs] at h; obtain rfl := (Prod.mk.inj h).2; exact nomatch hg
    | some es =>
      rw [hs] at h
      obtain rfl := (Prod.mk.inj h).2
      rw [← seqIfs_eq (by simpa using he) hs]
      exact ⟨rfl, hg⟩

/-- **C88**: `if`s without an `else` in a row are reported from the first one of them only. -/
theorem C88_once {t : Test} {b e : Block} {i : If} {next : List Stmt} (hp : (extractFromElif ⟨t, b, e⟩).1 = false)
    (hi : (extractFromElif i).1 = false) : identicalSeqIfs (some (.if_ t b e)) i next = (false, []) := by
  simp [identicalSeqIfs, seqIfs, hp, hi]

/-- **C88**: they are reported from there, also if there is an `if` with an `else` before them. -/
theorem C88_first {prev : Option Stmt} {i : If} {next : List Stmt}
    (hp : ∀ t b e, prev = some (.if_ t b e) → (extractFromElif ⟨t, b, e⟩).1 = true) (hi : (extractFromElif i).1 = false) :
    identicalSeqIfs prev i next = (false, groupsFrom 0 (siblingEntries 0 (i.stmt :: next))) := by
  have hs : seqIfs prev i next = some (entriesFrom 0 0 (extractFromElif i).2 ++ siblingEntries 1 next) := by
    unfold seqIfs
    split
    · rw [if_pos (hp _ _ _ rfl)]
    · rfl
  unfold identicalSeqIfs
  rw [if_neg (by simp [hi]), hs, seqIfs_eq hi hs]

/-- **C88** (partial). `elif`s of one `if`, that has no `else`, can be joined in any case. -/
theorem C88_elifs_partial {prev : Option Stmt} {i : If} {next : List Stmt} {gs : List Group} {g : Group}
    (h : identicalSeqIfs prev i next = (false, gs)) (hg : g ∈ gs) : ∃ st, (i.stmt :: next)[g.sib]? = some st ∧ 2 ≤ g.count ∧
      (0 < g.depth ∨ g.depth + g.count ≤ (elifsIn st).length →
        ∃ p, joinAt (g.count - 1) g.depth st = some p ∧ Same L [st] p) := by
  obtain ⟨_, hg⟩ := seq_cases h hg
  obtain ⟨pre, e, post, hes, rfl, hz, _⟩ := groups_spec _ _ g hg
  obtain ⟨k, st, hk, hst, hat, hlen, hpost⟩ := entries_siblings _ _ _ _ _ hes
  rw [Nat.zero_add] at hk
  refine ⟨st, hk ▸ hst, by show 2 ≤ sameIfs e post + 1; omega, fun hin => ?_⟩
  obtain ⟨hle, hbody, _⟩ := sameIfs_spec e post
  show ∃ p, joinAt (sameIfs e post + 1 - 1) e.depth st = some p ∧ _
  rw [Nat.add_sub_cancel]
  have hn : sameIfs e post ≤ (elifs e.node.orelse).length := by
    rcases hin with hin | hin
    · by_contra hlt
      have hlt : (elifs e.node.orelse).length < sameIfs e post := by omega
      have hin : 0 < e.depth := hin
      have hpost' : post = entriesFrom e.sib (e.depth + 1) (elifs e.node.orelse) ++ siblingEntries (e.sib + 1) ((i.stmt :: next).drop (k + 1)) := hpost
      have hA := entriesFrom_length e.sib (elifs e.node.orelse) (e.depth + 1)
      cases hB : siblingEntries (e.sib + 1) ((i.stmt :: next).drop (k + 1)) with
      | nil =>
        have := congrArg List.length hpost'
        rw [hB, List.append_nil, hA] at this
        omega
      | cons x B =>
        have hx : x ∈ post.take (sameIfs e post) := by
          revert hlt
          generalize sameIfs e post = n
          intro hlt
          obtain ⟨m, hm⟩ : ∃ m, n - (elifs e.node.orelse).length = m + 1 := ⟨n - (elifs e.node.orelse).length - 1, by omega⟩
          rw [hpost', hB, List.take_append, hA, hm, List.take_succ_cons]
          exact List.mem_append_right _ List.mem_cons_self
        have hp := (hbody _ hx).1
        have hne : e.depth ≠ 0 := by omega
        simp only [parentIn, hne, decide_false, Bool.false_or, decide_eq_true_eq] at hp
        have := siblingEntries_sib _ _ x (hB ▸ List.mem_cons_self)
        omega
    · have hin : e.depth + (sameIfs e post + 1) ≤ (elifsIn st).length := hin
      omega
  have hbodies : ∀ j ∈ (elifs e.node.orelse).take (sameIfs e post), j.body = e.node.body := by
    refine take_elifs (sib := e.sib) (d := e.depth + 1) (rest := siblingEntries (e.sib + 1) ((i.stmt :: next).drop (k + 1))) hn fun x hx => ?_
    have hpost' : post = entriesFrom e.sib (e.depth + 1) (elifs e.node.orelse) ++ siblingEntries (e.sib + 1) ((i.stmt :: next).drop (k + 1)) := hpost
    rw [← hpost'] at hx
    exact (hbody x hx).2
  exact joinAt_of _ e.depth st e.node hat (join_elifs e.node.body [] _ e.node.test e.node.orelse hn hbodies)

theorem following_after {sib d : Nat} {e : Block} {next : List Stmt} : ∀ x ∈ following sib d e next, ¬(x.sib = sib ∧ x.depth = d) := by
  intro x hx
  have hdepth : ∀ (is : List If) (d' : Nat) (x : Entry), x ∈ entriesFrom sib d' is → d' ≤ x.depth := by
    intro is
    induction is with
    | nil => intro d' x h; exact nomatch h
    | cons i is ih =>
      intro d' x h
      rcases List.mem_cons.1 h with rfl | h
      · exact Nat.le_refl _
      · exact Nat.le_of_succ_le (ih (d' + 1) x h)
  rcases List.mem_append.1 hx with h | h
  · have := hdepth _ _ _ h; rintro ⟨_, h2⟩; omega
  · have := siblingEntries_sib _ _ _ h; rintro ⟨h1, _⟩; omega

/-- The `if`s of a message are those that begin where the message is. -/
theorem groupEntries_eq {sibs : List Stmt} {pre : List Entry} {e : Entry} {post : List Entry} {n : Nat}
    (hes : siblingEntries 0 sibs = pre ++ e :: post) :
    groupEntries (siblingEntries 0 sibs) ⟨e.sib, e.depth, n + 1⟩ = e :: post.take n := by
  have hpre : ∀ x ∈ pre, ¬(x.sib = e.sib ∧ x.depth = e.depth) := by
    intro x hx
    obtain ⟨a, b, rfl⟩ := List.append_of_mem hx
    have hes' : siblingEntries 0 sibs = a ++ x :: (b ++ e :: post) := by rw [hes]; simp
    obtain ⟨_, _, _, _, _, _, hpost⟩ := entries_siblings _ _ _ _ _ hes'
    have he : e ∈ following x.sib x.depth x.node.orelse _ := hpost ▸ List.mem_append_right _ List.mem_cons_self
    rintro ⟨h1, h2⟩
    exact following_after e he ⟨h1.symm, h2.symm⟩
  unfold groupEntries
  rw [hes]
  have : (pre ++ e :: post).dropWhile (fun x => !(decide (x.sib = e.sib) && decide (x.depth = e.depth))) = e :: post := by
    clear hes
    induction pre with
    | nil => simp
    | cons x pre ih =>
      have hx := hpre x List.mem_cons_self
      have : (!(decide (x.sib = e.sib) && decide (x.depth = e.depth))) = true := by
        by_cases h1 : x.sib = e.sib
        · have h2 : x.depth ≠ e.depth := fun h2 => hx ⟨h1, h2⟩
          simp [h2]
        · simp [h1]
      rw [List.cons_append, List.dropWhile_cons, if_pos this]
      exact ih fun y hy => hpre y (List.mem_cons_of_mem _ hy)
  rw [this, List.take_succ_cons]

/-- **C88** (partial). `if`s next to each other. Missing: bodies that are left by going on, as more than one of them may be executed;
`if`s, other than the last one, that have an `else`. -/
theorem C88_ifs_partial {prev : Option Stmt} {i : If} {next : List Stmt} {gs : List Group} {g : Group} {es : List Entry}
    (h : identicalSeqIfs prev i next = (false, gs)) (hg : g ∈ gs) (hes : seqIfs prev i next = some es) (hd : g.depth = 0)
    (hno : noElseBetween (groupEntries es g)) : ∃ t b e after, (i.stmt :: next).drop g.sib = .if_ t b e :: after ∧
      ((∀ s s', ¬RunB L b s .normal s') →
        ∃ p, join t b (g.count - 1) e after = some p ∧ Same L ((i.stmt :: next).drop g.sib) p) := by
  obtain ⟨hes', hg⟩ := seq_cases h hg
  obtain rfl := Option.some.inj (hes.symm.trans hes')
  obtain ⟨pre, e, post, hsplit, rfl, hz, _⟩ := groups_spec _ _ g hg
  rw [groupEntries_eq hsplit] at hno
  obtain ⟨k, st, hk, hst, hat, hlen, hpost⟩ := entries_siblings _ _ _ _ _ hsplit
  rw [Nat.zero_add] at hk
  have hd : e.depth = 0 := hd
  rw [hd] at hat
  have hat : st = e.node.stmt := hat
  obtain ⟨hlt, hget⟩ := List.getElem?_eq_some_iff.1 hst
  have hdrop : (i.stmt :: next).drop e.sib = .if_ e.node.test e.node.body e.node.orelse :: (i.stmt :: next).drop (k + 1) := by
    rw [hk, List.drop_eq_getElem_cons hlt, hget, hat]; rfl
  refine ⟨_, _, _, _, hdrop, fun hleave => ?_⟩
  show ∃ p, join _ _ (sameIfs e post + 1 - 1) _ _ = some p ∧ Same L ((i.stmt :: next).drop e.sib) p
  rw [Nat.add_sub_cancel, hdrop]
  obtain ⟨hle, hbody, _⟩ := sameIfs_spec e post
  rw [hpost] at hle hbody
  rw [hpost]
  refine join_seq e.node.body hleave _ e.node.test e.node.orelse _ e.sib e.depth e.node.test e.node.body hle (fun x hx => (hbody x hx).2) ?_
  rw [hpost] at hno
  exact hno

/-! ### C89: `if`s that are untwisted

Full statement: an `if` that is reported as twisted can be replaced by the suggested one. It is false: see the counterexample. -/

/-- **C89** (partial). Missing: an outer condition that has effects, or that changes when the inner one is evaluated. -/
theorem C89_partial {i j : If} (h : untwisted i = some j) (hpure : ∀ s, (L.eval i.test s).2 = s)
    (hsame : ∀ t b e, i.body = [.if_ t b e] → ∀ s, (L.eval i.test (L.eval t s).2).1 = (L.eval i.test s).1) :
    Same L [i.stmt] [j.stmt] := by
  obtain ⟨o, body, orelse⟩ := i
  unfold untwisted at h
  split at h
  · rename_i t₁ a b t₂ c d hb he
    simp only at hb he hpure hsame
    subst hb he
    have hs := hsame t₁ a b rfl
    have hpure' : ∀ s v s1, L.eval o s = (v, s1) → s1 = s := fun s v s1 h => by have := hpure s; rw [h] at this; exact this
    by_cases hz : (decide ((extractFromElif ⟨o, [.if_ t₁ a b], [.if_ t₂ c d]⟩).2.length > 1) || b.isEmpty || d.isEmpty) = true
    · rw [if_pos hz] at h; exact nomatch h
    · rw [if_neg hz] at h
      have key : ∀ (n : Test) (f : Bool → Bool), (∀ s v s1, L.eval t₂ s = (.ok v, s1) → L.eval n s = (.ok (f v), s1)) →
          (∀ s x s1, L.eval t₂ s = (.error x, s1) → L.eval n s = (.error x, s1)) →
          (∀ v, (if v then c else d) = if f v then a else b) →
          Same L [Stmt.if_ o [.if_ t₁ a b] [.if_ t₂ c d]] [.if_ (.or_ (.and_ o t₁) (.and_ (.not_ o) n)) a b] := by
        intro n f hn hx hf s o' s'
        rw [runB_single, runB_single]
        rcases eval_cases (L := L) o s with ⟨s1, ho⟩ | ⟨s1, ho⟩ | ⟨x, s1, ho⟩
        · obtain rfl := hpure' _ _ _ ho
          rw [run_true ho, runB_single]
          rcases eval_cases (L := L) t₁ s1 with ⟨s2, ht⟩ | ⟨s2, ht⟩ | ⟨x, s2, ht⟩
          · have : L.eval (.or_ (.and_ o t₁) (.and_ (.not_ o) n)) s1 = (.ok true, s2) := by simp [Lang.eval, ho, ht]
            rw [run_true ht, run_true this]
          · have ho2 : L.eval o s2 = (.ok true, s2) := by
              have h1 := hs s1
              rw [ht, ho] at h1
              exact Prod.ext h1 (hpure s2)
            have : L.eval (.or_ (.and_ o t₁) (.and_ (.not_ o) n)) s1 = (.ok false, s2) := by simp [Lang.eval, ho, ht, ho2]
            rw [run_false ht, run_false this]
          · have : L.eval (.or_ (.and_ o t₁) (.and_ (.not_ o) n)) s1 = (.error x, s2) := by simp [Lang.eval, ho, ht]
            rw [run_raise ht, run_raise this]
        · obtain rfl := hpure' _ _ _ ho
          rw [run_false ho, runB_single]
          have hev : L.eval (.or_ (.and_ o t₁) (.and_ (.not_ o) n)) s1 = L.eval n s1 := by simp [Lang.eval, ho]
          rcases ht : L.eval t₂ s1 with ⟨v, s2⟩
          cases v with
          | error x =>
            rw [run_raise ht, run_raise (hev.trans (hx _ _ _ ht))]
          | ok v =>
            have hlhs : Run L (.if_ t₂ c d) s1 o' s' ↔ RunB L (if v then c else d) s2 o' s' := by
              cases v with
              | true => rw [run_true ht]; rfl
              | false => rw [run_false ht]; rfl
            rw [hlhs, hf]
            have hv := hev.trans (hn _ _ _ ht)
            cases hfv : f v with
            | true => rw [hfv] at hv; rw [run_true hv]; rfl
            | false => rw [hfv] at hv; rw [run_false hv]; rfl
        · have : L.eval (.or_ (.and_ o t₁) (.and_ (.not_ o) n)) s = (.error x, s1) := by simp [Lang.eval, ho]
          rw [run_raise ho, run_raise this]
      by_cases h1 : a = d ∧ b = c
      · rw [if_pos h1] at h
        obtain rfl := Option.some.inj h
        obtain ⟨rfl, rfl⟩ := h1
        refine key (.not_ t₂) (! ·) (fun s v s1 ht => by simp [Lang.eval, ht]) (fun s x s1 ht => by simp [Lang.eval, ht]) ?_
        intro v; cases v <;> rfl
      · rw [if_neg h1] at h
        by_cases h2 : a = c ∧ b = d
        · rw [if_pos h2] at h
          obtain rfl := Option.some.inj h
          obtain ⟨rfl, rfl⟩ := h2
          exact key t₂ id (fun s v s1 ht => ht) (fun s x s1 ht => ht) fun v => rfl
        · rw [if_neg h2] at h; exact nomatch h
  · exact nomatch h

end

/-! ### Examples and counterexamples -/

/-- A number and what has been printed. Condition `n` is whether the number is greater than `n`, simple statement `0` sets the number
to `0`, `1` decreases it, `2` returns `1`, the others print their number. -/
def number : Lang (Int × List Nat) where
  test n s := (.ok (decide (s.1 > n)), s)
  simple _ n s o s' :=
    match n with
    | 0 => o = .normal ∧ s' = (0, s.2)
    | 1 => o = .normal ∧ s' = (s.1 - 1, s.2)
    | 2 => o = .ret 1 ∧ s' = s
    | n => o = .normal ∧ s' = (s.1, s.2 ++ [n])

/-- A statement -/
def st (n : Nat) : Stmt := .simple false n

/-- Simple statements do what they do. -/
theorem run_number {b n s o s'} : Run number (.simple b n) s o s' ↔ number.simple b n s o s' := by
  constructor
  · intro h; cases h with | simple h => exact h
  · exact .simple

-- `if x > 0: print(3); print(4)`, `elif x > 1: print(5); print(4)`, `else: print(4)`
example : checkBranches ⟨.atom 0, [st 3, st 4], [.if_ (.atom 1) [st 5, st 4] [st 4]]⟩ = some [.after 1] := by decide
-- an `if` in a branch: the `elif` is an `else` with an `if` in it
example : checkBranches ⟨.atom 0, [.if_ (.atom 2) [st 3] [st 4]], [.if_ (.atom 2) [st 3] [st 4]]⟩ = some [.identical] := by decide
example : checkBranches ⟨.atom 0, [st 3, st 4, st 5], [st 3, st 6, st 5]⟩ = some [.before 1, .after 1] := by decide
example : checkBranches ⟨.atom 0, [st 3, .simple true 2], [st 4, .simple true 2]⟩ = some [] := by decide
example : suggested ⟨.atom 0, [st 3, st 4], [.if_ (.atom 1) [st 5, st 4] [st 4]]⟩ (.after 1) =
    [.if_ (.atom 0) [st 3] [.if_ (.atom 1) [st 5] []], st 4] := by decide

/-- `if x > 0: x = 0; print(3)`, `else: x = 0; print(4)` -/
def resets : If := ⟨.atom 0, [st 0, st 3], [st 0, st 4]⟩

/-- C86 is false where the code that is moved changes the condition: moving `x = 0` before the `if` makes it print something else. -/
theorem C86_before_counterexample : checkBranches resets = some [.before 1] ∧
    RunB number [resets.stmt] (1, []) .normal (0, [3]) ∧
    ¬RunB number (suggested resets (.before 1)) (1, []) .normal (0, [3]) := by
  refine ⟨by decide, ?_, ?_⟩
  · rw [runB_single]
    refine .then_ (s1 := (1, [])) (by rfl) (.next (.simple ⟨rfl, rfl⟩) (.next (.simple ⟨rfl, rfl⟩) .nil))
  · intro h
    rcases runB_cons.1 (show RunB number (st 0 :: [.if_ (.atom 0) [st 3] [st 4]]) _ _ _ from h) with ⟨s1, h1, h2⟩ | ⟨_, h⟩
    · obtain ⟨_, rfl⟩ := run_number.1 h1
      rw [runB_single, run_false (s1 := (0, [])) rfl, runB_single] at h2
      have := (run_number.1 h2).2
      exact absurd this (by decide)
    · exact h rfl

/-- Conditions `0` and `1` are `next(it)` and `1 / 0`. What is left of the iterator is the state. -/
def iterator : Lang (List Bool) where
  test n s :=
    match n, s with
    | 0, b :: s => (.ok b, s)
    | 0, [] => (.error .valueError, [])
    | 1, s => (.error .zeroDivisionError, s)
    | _, s => (.ok false, s)
  simple _ n s o s' := o = .ret n ∧ s' = s

theorem run_iterator {b n s o s'} : Run iterator (.simple b n) s o s' ↔ iterator.simple b n s o s' := by
  constructor
  · intro h; cases h with | simple h => exact h
  · exact .simple

/-- C86 is false where conditions have effects: `if next(it): return 3`, `else: return 3` moves the iterator. -/
theorem C86_effect_counterexample : checkBranches ⟨.atom 0, [st 3], [st 3]⟩ = some [.identical] ∧
    RunB iterator [.if_ (.atom 0) [st 3] [st 3]] [true, true] (.ret 3) [true] ∧
    ¬RunB iterator (suggested ⟨.atom 0, [st 3], [st 3]⟩ .identical) [true, true] (.ret 3) [true] := by
  refine ⟨by decide, ?_, fun h => ?_⟩
  · rw [runB_single]
    exact .then_ (s1 := [true]) rfl (.leave (.simple ⟨rfl, rfl⟩) (fun h => nomatch h))
  · have h : RunB iterator [st 3] [true, true] (.ret 3) [true] := h
    rw [runB_single] at h
    exact absurd (run_iterator.1 h).2 (by decide)

/-- C86 is false where conditions raise: `if 1 / 0: return 3`, `else: return 3` does not return. -/
theorem C86_raise_counterexample : checkBranches ⟨.atom 1, [st 3], [st 3]⟩ = some [.identical] ∧
    ¬RunB iterator [.if_ (.atom 1) [st 3] [st 3]] [] (.ret 3) [] ∧
    RunB iterator (suggested ⟨.atom 1, [st 3], [st 3]⟩ .identical) [] (.ret 3) [] := by
  refine ⟨by decide, fun h => ?_, ?_⟩
  · rw [runB_single, run_raise (x := .zeroDivisionError) (s1 := []) rfl] at h
    exact nomatch h.1
  · exact .leave (.simple ⟨rfl, rfl⟩) (fun h => nomatch h)

-- `if x > 0: print(3)`, `elif x > 1: print(4)`, `elif x > 2: print(4)`, `else: print(5)`
example : identicalSeqIfs none ⟨.atom 0, [st 3], [.if_ (.atom 1) [st 4] [.if_ (.atom 2) [st 4] [st 5]]]⟩ [] = (true, [⟨0, 1, 2⟩]) := by
  decide
example : joinAt 1 1 (.if_ (.atom 0) [st 3] [.if_ (.atom 1) [st 4] [.if_ (.atom 2) [st 4] [st 5]]]) =
    some [.if_ (.atom 0) [st 3] [.if_ (.or_ (.atom 1) (.atom 2)) [st 4] [st 5]]] := by decide
-- `if x > 0: return 1`, `if x > 1: return 1`, `elif x > 2: return 1`
example : identicalSeqIfs none ⟨.atom 0, [st 2], []⟩ [.if_ (.atom 1) [st 2] [.if_ (.atom 2) [st 2] []], st 3] =
    (false, [⟨0, 0, 3⟩]) := by decide
-- the second of these `if`s is not looked at again, unless the first has an `else`
example : identicalSeqIfs (some (.if_ (.atom 0) [st 2] [])) ⟨.atom 1, [st 2], []⟩ [.if_ (.atom 2) [st 2] []] = (false, []) :=
  C88_once (by decide) (by decide)
example : identicalSeqIfs (some (.if_ (.atom 0) [st 2] [st 3])) ⟨.atom 1, [st 2], []⟩ [.if_ (.atom 2) [st 2] []] =
    (false, [⟨0, 0, 2⟩]) := by decide
-- the `elif` and the `else` are looked at
example : (extractFromElif ⟨.atom 0, [st 3, .if_ (.atom 1) [st 2] []], [.if_ (.atom 2) [st 4] [st 5]]⟩).2.length = 2 := by
  rw [C85_all_branches (by simp)]; decide
-- an `elif` is not joined with the next `if`
example : identicalSeqIfs none ⟨.atom 0, [st 3], [.if_ (.atom 1) [st 2] []]⟩ [.if_ (.atom 2) [st 2] []] = (false, []) := by decide

/-- C88 is false where more than one of the bodies is executed: `if x > 1: x -= 1`, `if x > 0: x -= 1`. -/
theorem C88_counterexample : identicalSeqIfs none ⟨.atom 1, [st 1], []⟩ [.if_ (.atom 0) [st 1] []] = (false, [⟨0, 0, 2⟩]) ∧
    join (.atom 1) [st 1] 1 [] [.if_ (.atom 0) [st 1] []] = some [.if_ (.or_ (.atom 1) (.atom 0)) [st 1] []] ∧
    RunB number [.if_ (.atom 1) [st 1] [], .if_ (.atom 0) [st 1] []] (2, []) .normal (0, []) ∧
    ¬RunB number [.if_ (.or_ (.atom 1) (.atom 0)) [st 1] []] (2, []) .normal (0, []) := by
  refine ⟨by decide, by decide, ?_, fun h => ?_⟩
  · refine .next (s1 := (1, [])) (.then_ (s1 := (2, [])) rfl ?_) (.next (.then_ (s1 := (1, [])) rfl ?_) .nil)
    · exact .next (.simple ⟨rfl, rfl⟩) .nil
    · exact .next (.simple ⟨rfl, rfl⟩) .nil
  · rw [runB_single, run_true (s1 := (2, [])) rfl, runB_single] at h
    exact absurd (run_number.1 h).2 (by decide)

/-- C88 is false even where the bodies return, if there is an `else` in between: `if x > 7: return 1`, `if x > 8: return 1`,
`else: print(3)`, `if x > 0: return 1` is reported as three `if`s to be joined. Nothing is printed if it is done, whatever is in the
`else`. -/
theorem C88_else_counterexample :
    identicalSeqIfs none ⟨.atom 7, [st 2], []⟩ [.if_ (.atom 8) [st 2] [st 3], .if_ (.atom 0) [st 2] []] = (false, [⟨0, 0, 3⟩]) ∧
    RunB number [.if_ (.atom 7) [st 2] [], .if_ (.atom 8) [st 2] [st 3], .if_ (.atom 0) [st 2] []] (1, []) (.ret 1) (1, [3]) ∧
    ∀ e, ¬RunB number [.if_ (.or_ (.or_ (.atom 7) (.atom 8)) (.atom 0)) [st 2] e] (1, []) (.ret 1) (1, [3]) := by
  refine ⟨by decide, ?_, fun e h => ?_⟩
  · refine .next (s1 := (1, [])) (.else_ (s1 := (1, [])) rfl .nil) ?_
    refine .next (s1 := (1, [3])) (.else_ (s1 := (1, [])) rfl (.next (.simple ⟨rfl, rfl⟩) .nil)) ?_
    refine .leave (.then_ (s1 := (1, [3])) rfl (.leave (.simple ⟨rfl, rfl⟩) (fun h => nomatch h))) (fun h => nomatch h)
  · rw [runB_single, run_true (s1 := (1, [])) rfl, runB_single] at h
    exact absurd (run_number.1 h).2 (by decide)

-- `if x > 0: (if x > 1: print(3) else: print(4)) else: (if x > 2: print(4) else: print(3))`
example : untwisted ⟨.atom 0, [.if_ (.atom 1) [st 3] [st 4]], [.if_ (.atom 2) [st 4] [st 3]]⟩ =
    some ⟨.or_ (.and_ (.atom 0) (.atom 1)) (.and_ (.not_ (.atom 0)) (.not_ (.atom 2))), [st 3], [st 4]⟩ := by rfl
example : untwisted ⟨.atom 0, [.if_ (.atom 1) [st 3] [st 4]], [.if_ (.atom 2) [st 3] [st 5]]⟩ = none := by decide

/-- C89 is false where the outer condition has effects: with `next(it)` as the outer condition, the iterator may be moved twice. -/
theorem C89_counterexample :
    untwisted ⟨.atom 0, [.if_ (.atom 2) [st 3] [st 4]], [.if_ (.atom 2) [st 4] [st 3]]⟩ =
      some ⟨.or_ (.and_ (.atom 0) (.atom 2)) (.and_ (.not_ (.atom 0)) (.not_ (.atom 2))), [st 3], [st 4]⟩ ∧
    RunB iterator [.if_ (.atom 0) [.if_ (.atom 2) [st 3] [st 4]] [.if_ (.atom 2) [st 4] [st 3]]] [true, false] (.ret 4) [false] ∧
    ¬RunB iterator [.if_ (.or_ (.and_ (.atom 0) (.atom 2)) (.and_ (.not_ (.atom 0)) (.not_ (.atom 2)))) [st 3] [st 4]]
      [true, false] (.ret 4) [false] := by
  refine ⟨by rfl, ?_, fun h => ?_⟩
  · rw [runB_single]
    refine .then_ (s1 := [false]) rfl ?_
    rw [runB_single]
    exact .else_ (s1 := [false]) rfl (.leave (.simple ⟨rfl, rfl⟩) (fun h => nomatch h))
  · rw [runB_single, run_true (s1 := []) rfl, runB_single] at h
    exact absurd (run_iterator.1 h).2 (by decide)

end Verif.Py.Branches
