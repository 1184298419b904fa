import Verif.Model.IfAttempts

/-!
C126: which messages are reported for one `if`.
-/

namespace Verif.IfAttempts

/-- The branches are similar, all cases are covered, and it is not a part of a regular structure. -/
def Similar (f : If) : Prop := f.endsWithElse = true ∧ f.oneOfParents = false ∧ f.avars ≠ none ∧ f.otherDuplication = false

/-- What can be said of an `if`, in the order of preference. -/
def Fits (f : If) : Nat → Sym → Prop
  | 0, s => f.endsWithElse = true ∧ s ∈ f.part
  | 1, s => s ∈ f.seq
  | 2, s => s = .branches ∧ Similar f ∧ f.avars = some 0
  | 3, s => s = .untwisted ∧ Similar f ∧ f.testsChange = false ∧ f.untwisted = true
  | 4, s => s = .use ∧ Similar f ∧ f.testsChange = false ∧ f.use = true
  | 5, s => s = .block ∧ Similar f ∧ f.testsChange = false ∧ f.block = true
  | 6, s => f.oneOfParents = false ∧ f.first = true ∧ f.container = some s
  | 7, s => s = .expr ∧ Similar f ∧ f.testsChange = false ∧ f.called = false ∧ f.expr = true
  | 8, s => s = .extracted ∧ Similar f ∧ f.called = false ∧ f.extracted = true
  | _, _ => False

/-- Nothing else is said afterwards: it is not one of the containers, and it is enabled, or one of the first. -/
def Ends (enabled : Sym → Bool) (n : Nat) (s : Sym) : Prop := n ≠ 6 ∧ (n < 3 ∨ enabled s = true)

/-- Attempts report the messages that these are for. -/
def Wf (f : If) : Prop :=
  (∀ s ∈ f.part, s = .part ∨ s = .branches) ∧ (∀ s ∈ f.seq, s = .seqIfs ∨ s = .seqElifs) ∧ ∀ s, f.container = some s → s = .list ∨ s = .dict

/-- An attempt is made. -/
def Made (enabled : Sym → Bool) (f : If) (a : Attempt) : Prop := ((!a.checkEnabled || a.symbols.any enabled) && a.run f) = true

theorem tryAll_mem (enabled : Sym → Bool) (f : If) (s : Sym) : ∀ as : List Attempt, s ∈ (tryAll enabled f as).1 ↔
    ∃ (i : Nat) (a : Attempt), as[i]? = some a ∧ Made enabled f a ∧ s ∈ (a.found f).1 ∧
      ∀ (j : Nat) (b : Attempt), j < i → as[j]? = some b → ¬(Made enabled f b ∧ (b.found f).2 = true)
  | [] => by simp [tryAll]
  | a :: as => by
    have ih := tryAll_mem enabled f s as
    rw [tryAll]
    constructor
    · intro h
      have later : s ∈ (tryAll enabled f as).1 → ¬(Made enabled f a ∧ (a.found f).2 = true) →
          ∃ (i : Nat) (a' : Attempt), (a :: as)[i]? = some a' ∧ Made enabled f a' ∧ s ∈ (a'.found f).1 ∧
            ∀ (j : Nat) (b : Attempt), j < i → (a :: as)[j]? = some b → ¬(Made enabled f b ∧ (b.found f).2 = true) := by
        intro hm hn
        obtain ⟨i, a', h1, h2, h3, h4⟩ := ih.mp hm
        refine ⟨i + 1, a', h1, h2, h3, fun j b hj hb => ?_⟩
        cases j with
        | zero =>
          cases hb
          exact hn
        | succ j => exact h4 j b (by omega) hb
      split at h
      · rename_i hmade
        split at h
        · exact ⟨0, a, rfl, hmade, h, fun j b hj => absurd hj (by omega)⟩
        · rename_i hf
          rcases List.mem_append.mp h with h | h
          · exact ⟨0, a, rfl, hmade, h, fun j b hj => absurd hj (by omega)⟩
          · exact later h fun hh => hf hh.2
      · rename_i hmade
        exact later h fun hh => hmade hh.1
    · rintro ⟨i, a', h1, h2, h3, h4⟩
      cases i with
      | zero =>
        cases h1
        rw [Made] at h2
        rw [if_pos h2]
        split
        · exact h3
        · exact List.mem_append_left _ h3
      | succ i =>
        have hm : s ∈ (tryAll enabled f as).1 := ih.mpr ⟨i, a', h1, h2, h3, fun j b hj hb => h4 (j + 1) b (by omega) hb⟩
        have hn := h4 0 a (by omega) rfl
        split
        · rename_i hmade
          rw [if_neg fun hh => hn ⟨hmade, hh⟩]
          exact List.mem_append_right _ hm
        · exact hm

theorem similar_iff (f : If) : f.similar = true ↔ Similar f := by
  simp only [If.similar, Similar, Bool.and_eq_true, Bool.not_eq_true', Option.isSome_iff_ne_none, and_assoc]

theorem one_mem (s t : Sym) (b : Bool) : s ∈ (one t b).1 ↔ s = t ∧ b = true := by
  cases b <;> simp [one]

/-- What an attempt that is made finds. -/
theorem made_mem (enabled : Sym → Bool) (f : If) (hf : Wf f) (s : Sym) (hs : enabled s = true) (i : Nat) :
    (∃ a, attempts[i]? = some a ∧ Made enabled f a ∧ s ∈ (a.found f).1) ↔ Fits f i s := by
  rcases i with _ | _ | _ | _ | _ | _ | _ | _ | _ | i
  · simp [attempts, Made, Fits]
  · simp [attempts, Made, Fits]
  · simp only [attempts, Made, Fits, List.getElem?_cons_succ, List.getElem?_cons_zero, Option.some.injEq, exists_eq_left', Bool.not_false, Bool.true_or,
      Bool.true_and, one_mem, similar_iff, beq_iff_eq]
    exact ⟨fun h => ⟨h.2.1, h.1, h.2.2⟩, fun h => ⟨h.2.1, h.1, h.2.2⟩⟩
  · simp only [attempts, Made, Fits, List.getElem?_cons_succ, List.getElem?_cons_zero, Option.some.injEq, exists_eq_left', Bool.not_true, Bool.false_or,
      List.any_cons, List.any_nil, Bool.or_false, Bool.and_eq_true, one_mem, similar_iff, Bool.not_eq_true']
    exact ⟨fun h => ⟨h.2.1, h.1.2.1, h.1.2.2, h.2.2⟩, fun h => ⟨⟨h.1 ▸ hs, h.2.1, h.2.2.1⟩, h.1, h.2.2.2⟩⟩
  · simp only [attempts, Made, Fits, List.getElem?_cons_succ, List.getElem?_cons_zero, Option.some.injEq, exists_eq_left', Bool.not_true, Bool.false_or,
      List.any_cons, List.any_nil, Bool.or_false, Bool.and_eq_true, one_mem, similar_iff, Bool.not_eq_true']
    exact ⟨fun h => ⟨h.2.1, h.1.2.1, h.1.2.2, h.2.2⟩, fun h => ⟨⟨h.1 ▸ hs, h.2.1, h.2.2.1⟩, h.1, h.2.2.2⟩⟩
  · simp only [attempts, Made, Fits, List.getElem?_cons_succ, List.getElem?_cons_zero, Option.some.injEq, exists_eq_left', Bool.not_true, Bool.false_or,
      List.any_cons, List.any_nil, Bool.or_false, Bool.and_eq_true, one_mem, similar_iff, Bool.not_eq_true']
    exact ⟨fun h => ⟨h.2.1, h.1.2.1, h.1.2.2, h.2.2⟩, fun h => ⟨⟨h.1 ▸ hs, h.2.1, h.2.2.1⟩, h.1, h.2.2.2⟩⟩
  · simp only [attempts, Made, Fits, List.getElem?_cons_succ, List.getElem?_cons_zero, Option.some.injEq, exists_eq_left', Bool.not_true, Bool.false_or,
      List.any_cons, List.any_nil, Bool.or_false, Bool.and_eq_true, Bool.or_eq_true, Bool.not_eq_true', Option.mem_toList]
    constructor
    · exact fun h => ⟨h.1.2.1, h.1.2.2, h.2⟩
    · refine fun h => ⟨⟨?_, h.1, h.2.1⟩, h.2.2⟩
      rcases hf.2.2 s h.2.2 with rfl | rfl
      · exact Or.inr (Or.inl hs)
      · exact Or.inr (Or.inr hs)
  · simp only [attempts, Made, Fits, List.getElem?_cons_succ, List.getElem?_cons_zero, Option.some.injEq, exists_eq_left', Bool.not_true, Bool.false_or,
      List.any_cons, List.any_nil, Bool.or_false, Bool.and_eq_true, one_mem, similar_iff, Bool.not_eq_true']
    exact ⟨fun h => ⟨h.2.1, h.1.2.1.1, h.1.2.1.2, h.1.2.2, h.2.2⟩, fun h => ⟨⟨h.1 ▸ hs, ⟨h.2.1, h.2.2.1⟩, h.2.2.2.1⟩, h.1, h.2.2.2.2⟩⟩
  · simp only [attempts, Made, Fits, List.getElem?_cons_succ, List.getElem?_cons_zero, Option.some.injEq, exists_eq_left', Bool.not_true, Bool.false_or,
      List.any_cons, List.any_nil, Bool.or_false, Bool.and_eq_true, one_mem, similar_iff, Bool.not_eq_true']
    exact ⟨fun h => ⟨h.2.1, h.1.2.1, h.1.2.2, h.2.2⟩, fun h => ⟨⟨h.1 ▸ hs, h.2.1, h.2.2.1⟩, h.1, h.2.2.2⟩⟩
  · simp [attempts, Fits]

/-- What an attempt that is made and successful is. -/
theorem made_ends (enabled : Sym → Bool) (f : If) (i : Nat) :
    (∃ a, attempts[i]? = some a ∧ Made enabled f a ∧ (a.found f).2 = true) ↔ ∃ s, Fits f i s ∧ Ends enabled i s := by
  rcases i with _ | _ | _ | _ | _ | _ | _ | _ | _ | i
  · simp only [attempts, Made, Fits, Ends, List.getElem?_cons_zero, Option.some.injEq, exists_eq_left', Bool.not_false, Bool.true_or, Bool.true_and,
      Bool.not_eq_true', List.isEmpty_eq_false_iff_exists_mem]
    constructor
    · rintro ⟨h, s, hs⟩
      exact ⟨s, ⟨h, hs⟩, by omega, Or.inl (by omega)⟩
    · rintro ⟨s, ⟨h, hs⟩, -⟩
      exact ⟨h, s, hs⟩
  · simp only [attempts, Made, Fits, Ends, List.getElem?_cons_succ, List.getElem?_cons_zero, Option.some.injEq, exists_eq_left', Bool.not_false, Bool.true_or,
      Bool.true_and, Bool.not_eq_true', List.isEmpty_eq_false_iff_exists_mem]
    constructor
    · rintro ⟨-, s, hs⟩
      exact ⟨s, hs, by omega, Or.inl (by omega)⟩
    · rintro ⟨s, hs, -⟩
      exact ⟨trivial, s, hs⟩
  · simp only [attempts, Made, Fits, Ends, List.getElem?_cons_succ, List.getElem?_cons_zero, Option.some.injEq, exists_eq_left', Bool.not_false, Bool.true_or,
      Bool.true_and, one, similar_iff, beq_iff_eq]
    constructor
    · exact fun h => ⟨.branches, ⟨rfl, h⟩, by omega, Or.inl (by omega)⟩
    · rintro ⟨s, ⟨-, h⟩, -⟩
      exact h
  · simp only [attempts, Made, Fits, Ends, List.getElem?_cons_succ, List.getElem?_cons_zero, Option.some.injEq, exists_eq_left', Bool.not_true, Bool.false_or,
      List.any_cons, List.any_nil, Bool.or_false, Bool.and_eq_true, one, similar_iff, Bool.not_eq_true']
    constructor
    · exact fun h => ⟨_, ⟨rfl, h.1.2.1, h.1.2.2, h.2⟩, by omega, Or.inr h.1.1⟩
    · rintro ⟨s, ⟨rfl, h1, h2, h3⟩, -, h | h⟩
      · omega
      · exact ⟨⟨h, h1, h2⟩, h3⟩
  · simp only [attempts, Made, Fits, Ends, List.getElem?_cons_succ, List.getElem?_cons_zero, Option.some.injEq, exists_eq_left', Bool.not_true, Bool.false_or,
      List.any_cons, List.any_nil, Bool.or_false, Bool.and_eq_true, one, similar_iff, Bool.not_eq_true']
    constructor
    · exact fun h => ⟨_, ⟨rfl, h.1.2.1, h.1.2.2, h.2⟩, by omega, Or.inr h.1.1⟩
    · rintro ⟨s, ⟨rfl, h1, h2, h3⟩, -, h | h⟩
      · omega
      · exact ⟨⟨h, h1, h2⟩, h3⟩
  · simp only [attempts, Made, Fits, Ends, List.getElem?_cons_succ, List.getElem?_cons_zero, Option.some.injEq, exists_eq_left', Bool.not_true, Bool.false_or,
      List.any_cons, List.any_nil, Bool.or_false, Bool.and_eq_true, one, similar_iff, Bool.not_eq_true']
    constructor
    · exact fun h => ⟨_, ⟨rfl, h.1.2.1, h.1.2.2, h.2⟩, by omega, Or.inr h.1.1⟩
    · rintro ⟨s, ⟨rfl, h1, h2, h3⟩, -, h | h⟩
      · omega
      · exact ⟨⟨h, h1, h2⟩, h3⟩
  · simp [attempts, Ends]
  · simp only [attempts, Made, Fits, Ends, List.getElem?_cons_succ, List.getElem?_cons_zero, Option.some.injEq, exists_eq_left', Bool.not_true, Bool.false_or,
      List.any_cons, List.any_nil, Bool.or_false, Bool.and_eq_true, one, similar_iff, Bool.not_eq_true']
    constructor
    · exact fun h => ⟨_, ⟨rfl, h.1.2.1.1, h.1.2.1.2, h.1.2.2, h.2⟩, by omega, Or.inr h.1.1⟩
    · rintro ⟨s, ⟨rfl, h1, h2, h3, h4⟩, -, h | h⟩
      · omega
      · exact ⟨⟨h, ⟨h1, h2⟩, h3⟩, h4⟩
  · simp only [attempts, Made, Fits, Ends, List.getElem?_cons_succ, List.getElem?_cons_zero, Option.some.injEq, exists_eq_left', Bool.not_true, Bool.false_or,
      List.any_cons, List.any_nil, Bool.or_false, Bool.and_eq_true, one, similar_iff, Bool.not_eq_true']
    constructor
    · exact fun h => ⟨_, ⟨rfl, h.1.2.1, h.1.2.2, h.2⟩, by omega, Or.inr h.1.1⟩
    · rintro ⟨s, ⟨rfl, h1, h2, h3⟩, -, h | h⟩
      · omega
      · exact ⟨⟨h, h1, h2⟩, h3⟩
  · simp [attempts, Fits]

/-- C126: A message is reported for an `if` just if it is enabled, it fits, and nothing fits that is preferred: that is, for none of those which are looked at
before, unless it is not enabled or a list or dictionary. Whether the first ones are enabled does not matter. Nothing is reported for an `elif`. -/
theorem C126_reported (enabled : Sym → Bool) (f : If) (hf : Wf f) (s : Sym) :
    s ∈ (duplicateInIf enabled f).1 ↔
      f.isElif = false ∧ enabled s = true ∧ ∃ n, Fits f n s ∧ ∀ m < n, ∀ t, Fits f m t → ¬Ends enabled m t := by
  rw [duplicateInIf]
  split
  · rename_i h
    simp [h]
  rename_i h
  have h : f.isElif = false := by simpa using h
  simp only [List.mem_filter, h, true_and]
  rw [and_comm]
  refine and_congr_right fun hs => ?_
  rw [tryAll_mem]
  constructor
  · rintro ⟨i, a, h1, h2, h3, h4⟩
    refine ⟨i, (made_mem enabled f hf s hs i).mp ⟨a, h1, h2, h3⟩, fun m hm t ht he => ?_⟩
    obtain ⟨b, hb, hb', hb''⟩ := (made_ends enabled f m).mpr ⟨t, ht, he⟩
    exact h4 m b hm hb ⟨hb', hb''⟩
  · rintro ⟨n, hn, hm⟩
    obtain ⟨a, h1, h2, h3⟩ := (made_mem enabled f hf s hs n).mpr hn
    refine ⟨n, a, h1, h2, h3, fun j b hj hb hh => ?_⟩
    obtain ⟨t, ht, he⟩ := (made_ends enabled f j).mp ⟨b, hb, hh.1, hh.2⟩
    exact hm j hj t ht he

/-- C126: Besides a list or a dictionary, one thing is reported: everything else that is reported is found in one way. -/
theorem C126_one (enabled : Sym → Bool) (f : If) (hf : Wf f) (s t : Sym) (hs : s ∈ (duplicateInIf enabled f).1) (ht : t ∈ (duplicateInIf enabled f).1)
    (hs' : s ≠ .list ∧ s ≠ .dict) (ht' : t ≠ .list ∧ t ≠ .dict) : ∃ n, Fits f n s ∧ Fits f n t := by
  obtain ⟨-, es, n, hn, hn'⟩ := (C126_reported enabled f hf s).mp hs
  obtain ⟨-, et, m, hm, hm'⟩ := (C126_reported enabled f hf t).mp ht
  have six : ∀ (k : Nat) (u : Sym), Fits f k u → u ≠ .list ∧ u ≠ .dict → k ≠ 6 := by
    rintro k u hk hu rfl
    rcases hf.2.2 u hk.2.2 with h | h
    · exact hu.1 h
    · exact hu.2 h
  rcases Nat.lt_trichotomy n m with h | h | h
  · exact absurd ⟨six n s hn hs', Or.inr es⟩ (hm' n h s hn)
  · subst h
    exact ⟨n, hn, hm⟩
  · exact absurd ⟨six m t hm ht', Or.inr et⟩ (hn' m h t hm)

/-- It says that there is a duplication just if something fits that ends it. -/
theorem C126_duplication (enabled : Sym → Bool) (f : If) :
    (duplicateInIf enabled f).2.1 = true ↔ f.isElif = false ∧ ∃ n s, Fits f n s ∧ Ends enabled n s := by
  have key : ∀ as : List Attempt, (tryAll enabled f as).2.1 = true ↔ ∃ (i : Nat) (a : Attempt), as[i]? = some a ∧ Made enabled f a ∧ (a.found f).2 = true := by
    intro as
    induction as with
    | nil => simp [tryAll]
    | cons a as ih =>
      rw [tryAll]
      split
      · rename_i hm
        split
        · rename_i hf
          exact ⟨fun _ => ⟨0, a, rfl, hm, hf⟩, fun _ => rfl⟩
        · rename_i hf
          rw [ih]
          constructor
          · rintro ⟨i, b, h⟩
            exact ⟨i + 1, b, h⟩
          · rintro ⟨i, b, h1, h2, h3⟩
            cases i with
            | zero =>
              cases h1
              exact absurd h3 hf
            | succ i => exact ⟨i, b, h1, h2, h3⟩
      · rename_i hm
        rw [ih]
        constructor
        · rintro ⟨i, b, h⟩
          exact ⟨i + 1, b, h⟩
        · rintro ⟨i, b, h1, h2, h3⟩
          cases i with
          | zero =>
            cases h1
            exact absurd h2 hm
          | succ i => exact ⟨i, b, h1, h2, h3⟩
  rw [duplicateInIf]
  split
  · rename_i h
    simp [h]
  rename_i h
  have h : f.isElif = false := by simpa using h
  simp only [h, true_and]
  rw [key]
  exact exists_congr fun i => made_ends enabled f i

theorem tryAll_first (enabled : Sym → Bool) (f : If) : ∀ as : List Attempt, (∀ a ∈ as, a.firstBody = false) → (tryAll enabled f as).2.2 = false
  | [], _ => rfl
  | a :: as, h => by
    have ih := tryAll_first enabled f as fun b hb => h b (List.mem_cons_of_mem _ hb)
    have ha := h a List.mem_cons_self
    rw [tryAll]
    split
    · split
      · exact ha
      · exact ih
    · exact ih

/-- The first branch is looked at further just if branches have the same statements, or follow each other with the same ones. -/
theorem C126_first (enabled : Sym → Bool) (f : If) :
    (duplicateInIf enabled f).2.2 = true ↔ f.isElif = false ∧ ((f.endsWithElse = true ∧ f.part ≠ []) ∨ f.seq ≠ []) := by
  rw [duplicateInIf]
  split
  · rename_i h
    simp [h]
  rename_i h
  have h : f.isElif = false := by simpa using h
  have hrest := tryAll_first enabled f (attempts.drop 2) (by decide)
  have : attempts = [⟨[.part], (·.endsWithElse), fun f => (f.part, !f.part.isEmpty), false, true⟩,
      ⟨[.seqIfs, .seqElifs], fun _ => true, fun f => (f.seq, !f.seq.isEmpty), false, true⟩] ++ attempts.drop 2 := rfl
  rw [this]
  simp only [List.cons_append, List.nil_append, tryAll, Bool.not_false, Bool.true_or, Bool.true_and, h, true_and, if_true]
  cases h1 : f.endsWithElse <;> cases h2 : f.part <;> cases h3 : f.seq <;> simp [hrest]

/-! ### Examples -/

/-- Branches that differ in one constant. -/
def exIf : If where
  isElif := false
  endsWithElse := true
  oneOfParents := false
  first := true
  part := []
  seq := []
  avars := some 1
  otherDuplication := false
  testsChange := false
  called := false
  untwisted := false
  use := false
  block := false
  expr := true
  extracted := true
  container := none

example : duplicateInIf (fun _ => true) exIf = ([.expr], true, false) := by decide

example : duplicateInIf (· ≠ .expr) exIf = ([.extracted], true, false) := by decide

example : duplicateInIf (fun _ => true) { exIf with part := [.part, .part] } = ([.part, .part], true, true) := by decide

example : ∃ n, Fits exIf n .expr := ⟨7, rfl, ⟨rfl, rfl, nofun, rfl⟩, rfl, rfl, rfl⟩

/-- Two ways to write one `if` may be suggested: a list, and conditional expressions. -/
theorem C126_two_counterexample :
    ∃ (enabled : Sym → Bool) (f : If), Wf f ∧ (duplicateInIf enabled f).1 = [.list, .expr] :=
  ⟨fun _ => true, { exIf with container := some .list }, ⟨nofun, nofun, fun s h => by cases h; exact Or.inl rfl⟩, by decide⟩

/-- If a list or dictionary is suggested and nothing else, it is not said that there is a duplication. -/
theorem C126_container_counterexample :
    ∃ (enabled : Sym → Bool) (f : If), Wf f ∧ duplicateInIf enabled f = ([.dict], false, false) :=
  ⟨fun _ => true, { exIf with container := some .dict, expr := false, extracted := false }, ⟨nofun, nofun, fun s h => by cases h; exact Or.inr rfl⟩, by decide⟩

/-- A message that is not enabled may prevent others that are: nothing is reported, though something is that is enabled if the first is not found. -/
theorem C126_disabled_counterexample :
    ∃ (enabled : Sym → Bool) (f : If), Wf f ∧ enabled .expr = true ∧ (∃ n, Fits f n .expr) ∧ (∀ s n, Fits f n s → enabled s = true → s = .expr) ∧
      duplicateInIf enabled f = ([], true, true) :=
  ⟨(· = .expr), { exIf with part := [.part] }, ⟨fun s h => by simp at h; exact Or.inl h, nofun, nofun⟩, rfl,
    ⟨7, rfl, ⟨rfl, rfl, nofun, rfl⟩, rfl, rfl, rfl⟩, fun s n _ h => by simpa using h, by decide⟩

end Verif.IfAttempts
