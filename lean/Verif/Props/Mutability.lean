import Verif.Model.Mutability
import Mathlib.Data.List.Perm.Subperm

/-!
C119: whether variables of an expression may be modified by statements.
-/

namespace Verif.Mutability

/-! ### What is meant -/

/-- What executing the statements may do to a variable; `isMut x` says that the object of `x`, or a part of it, may be modified by other names. -/
inductive Changes (bodies : Nat → List Ev) (isMut : Var → Prop) (x : Var) : List Ev → Prop
  | modify {evs} (h : .modify x ∈ evs) : Changes bodies isMut x evs
  | shared {evs y} (h : .modify y ∈ evs) (hm : isMut x) : Changes bodies isMut x evs
  | mutate {evs} (h : .mutate ∈ evs) (hm : isMut x) : Changes bodies isMut x evs
  | call {evs f defs b} (h : .call f defs ∈ evs) (hb : some b ∈ defs) (hc : Changes bodies isMut x (bodies b)) : Changes bodies isMut x evs
  | indirect {evs b} (h : .indirect b ∈ evs) (hc : Changes bodies isMut x (bodies b)) : Changes bodies isMut x evs

/-- Executing the statements may call something whose code is not known. -/
inductive Unknown (bodies : Nat → List Ev) : List Ev → Prop
  | here {evs f defs} (h : .call f defs ∈ evs) (hb : none ∈ defs) : Unknown bodies evs
  | call {evs f defs b} (h : .call f defs ∈ evs) (hb : some b ∈ defs) (hc : Unknown bodies (bodies b)) : Unknown bodies evs

/-- A type that can be modified is guessed, or none, for the value that the variable has where it is in the expression. -/
inductive Tells : Kind → Prop
  | name : Tells (.name false)
  | chained {b} : Tells (.assign true b)
  | assign : Tells (.assign false false)
  | aug : Tells (.aug false)
  | ann : Tells (.ann (some false))

/-- Names of functions have one definition each. -/
def One (bodies : Nat → List Ev) (evs : List Ev) (D : Str → Option Nat) : Prop :=
  (∀ f defs, .call f defs ∈ evs → ∀ d ∈ defs, d = D f) ∧ ∀ b f defs, .call f defs ∈ bodies b → ∀ d ∈ defs, d = D f

/-- Only names are called. -/
def ByName (bodies : Nat → List Ev) (evs : List Ev) : Prop := (∀ b, .indirect b ∉ evs) ∧ ∀ b c, .indirect c ∉ bodies b

/-- All names that are called are among these. -/
def Names (bodies : Nat → List Ev) (evs : List Ev) (names : List Str) : Prop :=
  (∀ f defs, .call f defs ∈ evs → f ∈ names) ∧ ∀ b f defs, .call f defs ∈ bodies b → f ∈ names

/-! ### Proofs -/

theorem canBeMutableName_iff (k : Kind) : canBeMutableName k = true ↔ Tells k := by
  constructor
  · intro h
    cases k with
    | name b => cases b <;> simp_all [canBeMutableName, canBeMutable]; exact .name
    | assign c b => cases c <;> cases b <;> simp_all [canBeMutableName, canBeMutable] <;> constructor
    | aug b => cases b <;> simp_all [canBeMutableName, canBeMutable]; exact .aug
    | ann b =>
      rcases b with _ | b
      · simp [canBeMutableName, canBeMutable] at h
      · cases b <;> simp_all [canBeMutableName, canBeMutable]; exact .ann
    | target => cases h
    | other => cases h
  · intro h
    cases h <;> rfl

theorem mayContainMutable_iff (node : List (Var × Kind)) : mayContainMutable node = true ↔ ∃ v ∈ node, Tells v.2 := by
  simp [mayContainMutable, canBeMutableName_iff]

theorem modifiedIn_iff (xs : List Var) (evs : List Ev) : modifiedIn xs evs = true ↔ ∃ x ∈ xs, .modify x ∈ evs := by
  simp only [modifiedIn, List.any_eq_true]
  constructor
  · rintro ⟨e, he, h⟩
    cases e with
    | modify x => exact ⟨x, by simpa using h, he⟩
    | mutate => cases h
    | call f d => cases h
    | indirect b => cases h
  · rintro ⟨x, hx, he⟩
    exact ⟨.modify x, he, by simpa using hx⟩

theorem directly_iff (node : List (Var × Kind)) (evs : List Ev) :
    directly node evs = true ↔ (∃ v ∈ node, Tells v.2) ∨ ∃ v ∈ node, .modify v.1 ∈ evs := by
  simp only [directly, Bool.or_eq_true, mayContainMutable_iff, modifiedIn_iff, List.mem_map]
  constructor
  · rintro (h | ⟨x, ⟨v, hv, rfl⟩, h⟩)
    · exact .inl h
    · exact .inr ⟨v, hv, h⟩
  · rintro (h | ⟨v, hv, h⟩)
    · exact .inl h
    · exact .inr ⟨v.1, ⟨v, hv, rfl⟩, h⟩

theorem mem_calls {evs : List Ev} {f : Str} {d : Option Nat} : (f, d) ∈ calls evs ↔ ∃ defs, .call f defs ∈ evs ∧ d ∈ defs := by
  simp only [calls, List.mem_flatMap]
  constructor
  · rintro ⟨e, he, h⟩
    cases e with
    | call g defs =>
      simp only [List.mem_map, Prod.mk.injEq] at h
      obtain ⟨d', hd, rfl, rfl⟩ := h
      exact ⟨defs, he, hd⟩
    | modify x => cases h
    | mutate => cases h
    | indirect b => cases h
  · rintro ⟨defs, he, hd⟩
    exact ⟨.call f defs, he, by simp [hd]⟩

/-- What was checked without finding anything. -/
theorem through_false {bodies : Nat → List Ev} {node : List (Var × Kind)} {D : Str → Option Nat}
    (hD : ∀ b f d, (f, d) ∈ calls (bodies b) → d = D f) :
    ∀ (n : Nat) (l : List (Str × Option Nat)) (S S' : List Str), (∀ f d, (f, d) ∈ l → d = D f) → throughCalls bodies node n l S = (false, S') →
      (∀ f ∈ S, f ∈ S') ∧ (∀ f d, (f, d) ∈ l → f ∈ S') ∧
        ∀ f ∈ S', f ∉ S → ∃ b, D f = some b ∧ directly node (bodies b) = false ∧ ∀ g d, (g, d) ∈ calls (bodies b) → g ∈ S'
  | n, [], S, S', _, h => by
    rw [throughCalls] at h
    cases h
    exact ⟨fun _ h => h, (fun _ _ h => by cases h), fun f h1 h2 => absurd h1 h2⟩
  | 0, _ :: _, S, S', _, h => by
    rw [throughCalls] at h
    cases h
  | n + 1, (f, d) :: rest, S, S', hl, h => by
    have hl' : ∀ f d, (f, d) ∈ rest → d = D f := fun f d hm => hl f d (by simp [hm])
    rw [throughCalls.eq_def] at h
    simp only at h
    split at h
    · rename_i hc
      obtain ⟨h1, h2, h3⟩ := through_false hD (n + 1) rest S S' hl' h
      refine ⟨h1, fun g e hm => ?_, h3⟩
      rcases List.mem_cons.1 hm with hm | hm
      · cases hm
        exact h1 _ (by simpa using hc)
      · exact h2 g e hm
    · split at h
      · cases h
      · rename_i b
        split at h
        · cases h
        · rename_i hd
          split at h
          · cases h
          · rename_i S1 he
            obtain ⟨h1, h2, h3⟩ := through_false hD n _ _ S1 (fun g e hm => hD b g e hm) he
            obtain ⟨k1, k2, k3⟩ := through_false hD (n + 1) rest S1 S' hl' h
            have hf : f ∈ S' := k1 f (h1 f (by simp))
            refine ⟨fun g hg => k1 g (h1 g (by simp [hg])), fun g e hm => ?_, fun g hg hn => ?_⟩
            · rcases List.mem_cons.1 hm with hm | hm
              · cases hm
                exact hf
              · exact k2 g e hm
            · by_cases hg1 : g ∈ S1
              · by_cases hgf : g = f
                · subst hgf
                  exact ⟨b, (hl g (some b) (by simp)).symm, by simpa using hd, fun x y hx => k1 x (h2 x y hx)⟩
                · obtain ⟨c, e1, e2, e3⟩ := h3 g hg1 (by simp [hgf, hn])
                  exact ⟨c, e1, e2, fun x y hx => k1 x (e3 x y hx)⟩
              · exact k3 g hg hg1
termination_by n l => (n, l.length)

/-- **C119**: if it says that no variable of the expression is modified, then executing the statements does not change any, if only names are called
that have one definition each, and if some place where a variable is tells that its object may be modified. -/
theorem C119_not_modified_partial {bodies : Nat → List Ev} {evs : List Ev} {D : Str → Option Nat} (hone : One bodies evs D) (hby : ByName bodies evs)
    {node : List (Var × Kind)} {isMut : Var → Prop} (hmut : ∀ v ∈ node, isMut v.1 → ∃ w ∈ node, w.1 = v.1 ∧ Tells w.2) {n : Nat}
    (h : mayBeModified bodies n node evs = false) :
    (∀ v ∈ node, ¬ Changes bodies isMut v.1 evs) ∧ ¬ Unknown bodies evs := by
  unfold mayBeModified at h
  rw [Bool.or_eq_false_iff] at h
  obtain ⟨h0, h1⟩ := h
  have hD : ∀ b f d, (f, d) ∈ calls (bodies b) → d = D f := by
    intro b f d hm
    obtain ⟨defs, h2, h3⟩ := mem_calls.1 hm
    exact hone.2 b f defs h2 d h3
  have hD0 : ∀ f d, (f, d) ∈ calls evs → d = D f := by
    intro f d hm
    obtain ⟨defs, h2, h3⟩ := mem_calls.1 hm
    exact hone.1 f defs h2 d h3
  obtain ⟨r, S', he⟩ : ∃ r S', throughCalls bodies node n (calls evs) [] = (r, S') := ⟨_, _, rfl⟩
  rw [he] at h1
  simp only at h1
  subst h1
  obtain ⟨-, h2, h3⟩ := through_false hD n _ [] S' hD0 he
  have himm : ∀ v ∈ node, ¬ Tells v.2 := by
    intro v hv ht
    have := (directly_iff node evs).2 (.inl ⟨v, hv, ht⟩)
    rw [h0] at this
    cases this
  have hnot : ∀ v ∈ node, ¬ isMut v.1 := by
    intro v hv hm
    obtain ⟨w, hw, -, ht⟩ := hmut v hv hm
    exact himm w hw ht
  have hclean : ∀ es, directly node es = false → ∀ v ∈ node, .modify v.1 ∉ es := by
    intro es hes v hv hm
    have := (directly_iff node es).2 (.inr ⟨v, hv, hm⟩)
    rw [hes] at this
    cases this
  -- what is called is in the set of names that were checked
  have step : ∀ es, (∀ g d, (g, d) ∈ calls es → g ∈ S') → (∀ g d, (g, d) ∈ calls es → d = D g) → ∀ f defs, .call f defs ∈ es → ∀ d ∈ defs,
      ∃ b, d = some b ∧ directly node (bodies b) = false ∧ ∀ g d, (g, d) ∈ calls (bodies b) → g ∈ S' := by
    intro es hes hd f defs hf d hdd
    have hm := mem_calls.2 ⟨defs, hf, hdd⟩
    obtain ⟨b, e1, e2, e3⟩ := h3 f (hes f d hm) (by simp)
    exact ⟨b, (hd f d hm).trans e1, e2, e3⟩
  refine ⟨fun v hv hc => ?_, fun hu => ?_⟩
  · have key : ∀ es, Changes bodies isMut v.1 es → directly node es = false → (∀ g d, (g, d) ∈ calls es → g ∈ S') → (∀ g d, (g, d) ∈ calls es → d = D g) →
        (∀ b, .indirect b ∉ es) → False := by
      intro es hc
      induction hc with
      | modify h => intro h4 _ _ _; exact hclean _ h4 v hv h
      | shared _ hm => exact fun _ _ _ _ => hnot v hv hm
      | mutate _ hm => exact fun _ _ _ _ => hnot v hv hm
      | call h hb hc ih =>
        intro _ h5 h6 _
        obtain ⟨b', e1, e2, e3⟩ := step _ h5 h6 _ _ h _ hb
        cases e1
        exact ih e2 e3 (hD _) (hby.2 _)
      | indirect h _ _ => intro _ _ _ h7; exact h7 _ h
    exact key evs hc h0 h2 hD0 hby.1
  · have key : ∀ es, Unknown bodies es → (∀ g d, (g, d) ∈ calls es → g ∈ S') → (∀ g d, (g, d) ∈ calls es → d = D g) → False := by
      intro es hc
      induction hc with
      | here h hb =>
        intro h5 h6
        obtain ⟨b', e1, -⟩ := step _ h5 h6 _ _ h _ hb
        cases e1
      | call h hb hc ih =>
        intro h5 h6
        obtain ⟨b', e1, e2, e3⟩ := step _ h5 h6 _ _ h _ hb
        cases e1
        exact ih e3 (hD _)
    exact key evs hu h2 hD0

/-- Something is found only where there is something. -/
theorem through_true {bodies : Nat → List Ev} {node : List (Var × Kind)} {names : List Str} (hn : ∀ b f d, (f, d) ∈ calls (bodies b) → f ∈ names) :
    ∀ (n : Nat) (l : List (Str × Option Nat)) (S S' : List Str) (r : Bool), (∀ f d, (f, d) ∈ l → f ∈ names) → S.Nodup → (∀ f ∈ S, f ∈ names) →
      names.length < S.length + n → throughCalls bodies node n l S = (r, S') →
      (S'.Nodup ∧ (∀ f ∈ S', f ∈ names) ∧ S.length ≤ S'.length) ∧ (r = true → ∃ f d, (f, d) ∈ l ∧ (d = none ∨ ∃ b, d = some b ∧
        ((∃ v ∈ node, Tells v.2) ∨ (∃ v ∈ node, Changes bodies (fun _ => False) v.1 (bodies b)) ∨ Unknown bodies (bodies b))))
  | n, [], S, S', r, _, hS, hSn, _, h => by
    rw [throughCalls] at h
    cases h
    exact ⟨⟨hS, hSn, Nat.le_refl _⟩, fun h => by cases h⟩
  | 0, _ :: _, S, S', r, _, hS, hSn, hlen, h => by
    have := (List.subperm_of_subset hS hSn).length_le
    omega
  | n + 1, (f, d) :: rest, S, S', r, hl, hS, hSn, hlen, h => by
    have hl' : ∀ f d, (f, d) ∈ rest → f ∈ names := fun f d hm => hl f d (by simp [hm])
    rw [throughCalls.eq_def] at h
    simp only at h
    split at h
    · obtain ⟨h1, h2⟩ := through_true hn (n + 1) rest S S' r hl' hS hSn hlen h
      refine ⟨h1, fun hr => ?_⟩
      obtain ⟨g, e, hm, hx⟩ := h2 hr
      exact ⟨g, e, by simp [hm], hx⟩
    · rename_i hc
      have hfn : f ∈ names := hl f d (by simp)
      have hS1 : (f :: S).Nodup := List.nodup_cons.2 ⟨by simpa using hc, hS⟩
      have hSn1 : ∀ g ∈ f :: S, g ∈ names := by
        intro g hg
        rcases List.mem_cons.1 hg with rfl | hg
        · exact hfn
        · exact hSn g hg
      split at h
      · cases h
        exact ⟨⟨hS1, hSn1, by simp⟩, fun _ => ⟨f, none, by simp, .inl rfl⟩⟩
      · rename_i b
        split at h
        · rename_i hd
          cases h
          refine ⟨⟨hS1, hSn1, by simp⟩, fun _ => ⟨f, some b, by simp, .inr ⟨b, rfl, ?_⟩⟩⟩
          rcases (directly_iff node (bodies b)).1 hd with h1 | ⟨v, hv, h1⟩
          · exact .inl h1
          · exact .inr (.inl ⟨v, hv, .modify h1⟩)
        · split at h
          · rename_i S1 he
            cases h
            obtain ⟨h1, h2⟩ := through_true hn n _ _ S' true (fun g e hm => hn b g e hm) hS1 hSn1 (by simp; omega) he
            refine ⟨⟨h1.1, h1.2.1, by have := h1.2.2; simp at this; omega⟩, fun _ => ⟨f, some b, by simp, .inr ⟨b, rfl, ?_⟩⟩⟩
            obtain ⟨g, e, hm, hx⟩ := h2 rfl
            obtain ⟨defs, hg, hdd⟩ := mem_calls.1 hm
            rcases hx with rfl | ⟨c, rfl, hx | ⟨v, hv, hx⟩ | hx⟩
            · exact .inr (.inr (.here hg hdd))
            · exact .inl hx
            · exact .inr (.inl ⟨v, hv, .call hg hdd hx⟩)
            · exact .inr (.inr (.call hg hdd hx))
          · rename_i S1 he
            obtain ⟨h1, -⟩ := through_true hn n _ _ S1 false (fun g e hm => hn b g e hm) hS1 hSn1 (by simp; omega) he
            have hlen1 := h1.2.2
            simp at hlen1
            obtain ⟨k1, k2⟩ := through_true hn (n + 1) rest S1 S' r hl' h1.1 h1.2.1 (by omega) h
            refine ⟨⟨k1.1, k1.2.1, by have := k1.2.2; omega⟩, fun hr => ?_⟩
            obtain ⟨g, e, hm, hx⟩ := k2 hr
            exact ⟨g, e, by simp [hm], hx⟩
termination_by n l => (n, l.length)

/-- **C119**: if it says that a variable of the expression may be modified, then a type that can be modified is guessed for one, or executing the
statements may change one, or may call something whose code is not known. -/
theorem C119_modified {bodies : Nat → List Ev} {evs : List Ev} {names : List Str} (hn : Names bodies evs names) {node : List (Var × Kind)} {n : Nat}
    (hlen : names.length < n) (h : mayBeModified bodies n node evs = true) :
    (∃ v ∈ node, Tells v.2) ∨ (∃ v ∈ node, Changes bodies (fun _ => False) v.1 evs) ∨ Unknown bodies evs := by
  unfold mayBeModified at h
  rw [Bool.or_eq_true] at h
  rcases h with h | h
  · rcases (directly_iff node evs).1 h with h | ⟨v, hv, h⟩
    · exact .inl h
    · exact .inr (.inl ⟨v, hv, .modify h⟩)
  · obtain ⟨r, S', he⟩ : ∃ r S', throughCalls bodies node n (calls evs) [] = (r, S') := ⟨_, _, rfl⟩
    rw [he] at h
    simp only at h
    subst h
    have hn1 : ∀ b f d, (f, d) ∈ calls (bodies b) → f ∈ names := by
      intro b f d hm
      obtain ⟨defs, h2, -⟩ := mem_calls.1 hm
      exact hn.2 b f defs h2
    have hn0 : ∀ f d, (f, d) ∈ calls evs → f ∈ names := by
      intro f d hm
      obtain ⟨defs, h2, -⟩ := mem_calls.1 hm
      exact hn.1 f defs h2
    obtain ⟨g, e, hm, hx⟩ := (through_true hn1 n _ [] S' true hn0 (by simp) (by simp) (by simpa using hlen) he).2 rfl
    obtain ⟨defs, hg, hdd⟩ := mem_calls.1 hm
    rcases hx with rfl | ⟨c, rfl, hx | ⟨v, hv, hx⟩ | hx⟩
    · exact .inr (.inr (.here hg hdd))
    · exact .inl hx
    · exact .inr (.inl ⟨v, hv, .call hg hdd hx⟩)
    · exact .inr (.inr (.call hg hdd hx))

/-! ### Examples -/

/-- Functions `f` that calls `g`, `g` that calls `f` and assigns to the variable 1, and `h` that calls only itself. -/
def some3 : Nat → List Ev
  | 0 => [.call "g".toList [some 1]]
  | 1 => [.call "f".toList [some 0], .modify 1]
  | 2 => [.call "h".toList [some 2], .modify 2]
  | _ => []

/-- What `f` does to `x` is found, and it is known that `h` does nothing to it. -/
example : mayBeModified some3 5 [(1, .name true)] [.call "f".toList [some 0]] = true ∧
    mayBeModified some3 5 [(1, .name true)] [.call "h".toList [some 2]] = false ∧
    mayBeModified some3 5 [(1, .name false)] [.call "h".toList [some 2]] = true ∧
    mayBeModified some3 5 [(1, .name true)] [.call "i".toList [none]] = true ∧
    mayBeModified some3 5 [(3, .name true)] [.call "f".toList [some 0], .modify 2] = false := by
  simp [mayBeModified, directly, mayContainMutable, modifiedIn, canBeMutableName, canBeMutable, calls, throughCalls, some3]

example : ¬ Changes some3 (fun _ => False) 1 [.call "h".toList [some 2]] :=
  (C119_not_modified_partial (bodies := some3) (evs := [.call "h".toList [some 2]])
    (D := fun f => if f = "f".toList then some 0 else if f = "g".toList then some 1 else some 2)
    ⟨by
      intro f defs h d hd
      simp only [List.mem_singleton, Ev.call.injEq] at h
      obtain ⟨rfl, rfl⟩ := h
      simpa using hd, by
      intro b f defs h d hd
      unfold some3 at h
      split at h <;> simp only [List.mem_cons, List.not_mem_nil, or_false, Ev.call.injEq, reduceCtorEq] at h
      all_goals
        obtain ⟨rfl, rfl⟩ := h
        simpa using hd⟩
    ⟨by simp, by intro b c; unfold some3; split <;> simp⟩ (node := [(1, .name true)]) (fun _ _ h => h.elim) (n := 5)
    (by simp [mayBeModified, directly, mayContainMutable, modifiedIn, canBeMutableName, canBeMutable, calls, throughCalls, some3])).1 (1, .name true) (by simp)

/-! ### Where the code does not do what is said -/

/-- `if c: def f(): pass`, `else: def f(): global x; x = 1`: of definitions of the same name only the first is looked at. -/
theorem C119_definitions_counterexample :
    mayBeModified (fun b => if b = 1 then [.modify 1] else []) 5 [(1, .name true)] [.call "f".toList [some 0, some 1]] = false ∧
      Changes (fun b => if b = 1 then [.modify 1] else []) (fun _ => False) 1 [.call "f".toList [some 0, some 1]] := by
  refine ⟨?_, .call (f := "f".toList) (defs := [some 0, some 1]) (b := 1) (by simp) (by simp) (.modify (by simp))⟩
  simp [mayBeModified, directly, mayContainMutable, modifiedIn, canBeMutableName, canBeMutable, calls, throughCalls]

/-- Methods, and functions that are passed to others, are not looked at: `obj.method()` and `list(map(f, xs))`. -/
theorem C119_indirect_counterexample :
    mayBeModified (fun b => if b = 0 then [.modify 1] else []) 5 [(1, .name true)] [.indirect 0] = false ∧
      Changes (fun b => if b = 0 then [.modify 1] else []) (fun _ => False) 1 [.indirect 0] := by
  refine ⟨?_, .indirect (b := 0) (by simp) (.modify (by simp))⟩
  simp [mayBeModified, directly, mayContainMutable, modifiedIn, canBeMutableName, canBeMutable, calls, throughCalls]

/-- `x` in `(x := f())`, `x, y = [], []` or `for x in xs` counts as something that cannot be modified, whatever it is. -/
theorem C119_target_counterexample :
    mayBeModified (fun _ => []) 5 [(1, .target)] [.modify 2] = false ∧ Changes (fun _ => []) (fun _ => True) 1 [.modify 2] := by
  refine ⟨?_, .shared (y := 2) (by simp) trivial⟩
  simp [mayBeModified, directly, mayContainMutable, modifiedIn, canBeMutableName, canBeMutable, calls, throughCalls]

/-- `x += (1,)`: `x` counts as something that cannot be modified, as a tuple cannot, although it may be a list. -/
theorem C119_aug_counterexample :
    mayBeModified (fun _ => []) 5 [(1, .aug true)] [.modify 2] = false ∧ Changes (fun _ => []) (fun _ => True) 1 [.modify 2] := by
  refine ⟨?_, .shared (y := 2) (by simp) trivial⟩
  simp [mayBeModified, directly, mayContainMutable, modifiedIn, canBeMutableName, canBeMutable, calls, throughCalls]

/-- `t` in `t == ([1], 2)`: tuples count as something that cannot be modified, although a list in it can be: `y = t[0]; y.append(3)`. -/
theorem C119_tuple_counterexample :
    mayBeModified (fun _ => []) 5 [(1, .name true)] [.modify 2] = false ∧ Changes (fun _ => []) (fun _ => True) 1 [.modify 2] := by
  refine ⟨?_, .shared (y := 2) (by simp) trivial⟩
  simp [mayBeModified, directly, mayContainMutable, modifiedIn, canBeMutableName, canBeMutable, calls, throughCalls]

end Verif.Mutability
