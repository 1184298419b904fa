import Verif.Model.Traverse
import Mathlib.Tactic.ByContra

/-! Lemmas for C82: an invariant of the traversal along successors. -/

namespace Verif.Traverse

variable {G : Graph} {c : Args}

/-- A part of a block. -/
abbrev Piece := Nat × Nat × Nat

/-! ### Triage -/

theorem mem_positions {dir : Dir} {lo hi i : Nat} : i ∈ positions dir lo hi ↔ lo ≤ i ∧ i < hi := by
  cases dir <;> simp only [positions, List.mem_reverse, List.mem_range'_1] <;> omega

theorem triage_false {b lo hi : Nat} : (triage c b lo hi).1 = false ↔ ∀ q, lo ≤ q → q < hi → c.stop (b, q) = false := by
  unfold triage
  cases hf : (positions c.dir lo hi).find? fun i => c.stop (b, i) with
  | none =>
    simp only [true_iff]
    intro q hq hq'
    have := List.find?_eq_none.1 hf q (mem_positions.2 ⟨hq, hq'⟩)
    simpa using this
  | some i =>
    have hm := List.mem_of_find?_eq_some hf
    have hs := List.find?_some hf
    simp only [mem_positions] at hm
    simp only [Bool.true_eq_false, false_iff]
    intro h
    rw [h i hm.1 hm.2] at hs
    cases hs

theorem triage_of_false {b lo hi : Nat} (h : (triage c b lo hi).1 = false) : triage c b lo hi = (false, lo, hi) := by
  unfold triage at h ⊢
  cases hf : (positions c.dir lo hi).find? fun i => c.stop (b, i) with
  | none => rfl
  | some i => rw [hf] at h; cases h

theorem find?_range' {p : Nat → Bool} : ∀ {n lo i : Nat}, (List.range' lo n).find? p = some i →
    lo ≤ i ∧ i < lo + n ∧ p i = true ∧ ∀ q, lo ≤ q → q < i → p q = false
  | 0, lo, i, h => by simp at h
  | n + 1, lo, i, h => by
    rw [List.range'_succ, List.find?_cons] at h
    cases hp : p lo with
    | true =>
      rw [hp] at h
      simp only [Option.some.injEq] at h
      subst h
      exact ⟨Nat.le_refl _, by omega, hp, fun q h1 h2 => by omega⟩
    | false =>
      rw [hp] at h
      obtain ⟨h1, h2, h3, h4⟩ := find?_range' h
      refine ⟨by omega, by omega, h3, fun q hq hq' => ?_⟩
      by_cases hlo : q = lo
      · rw [hlo]; exact hp
      · exact h4 q (by omega) hq'

/-- What is yielded of a part, along successors. -/
theorem mem_yielding (hd : c.dir = .successors) {b lo hi : Nat} (x : Loc) :
    x ∈ locsOf c.dir (yielding (triage c b lo hi) b) ↔
      x.1 = b ∧ lo ≤ x.2 ∧ x.2 < hi ∧ (∀ q, lo ≤ q → q < x.2 → c.stop (b, q) = false) ∧
        (c.includeEnd = true ∨ c.stop x = false) := by
  obtain ⟨b', p⟩ := x
  have hmem : ∀ t : Bool × Nat × Nat, (b', p) ∈ locsOf c.dir (yielding t b) ↔ b' = b ∧ t.2.1 ≤ p ∧ p < t.2.2 := by
    intro t
    unfold yielding
    by_cases ht : t.2.1 ≠ t.2.2
    · rw [if_pos ht]
      simp only [locsOf, List.flatMap_cons, List.flatMap_nil, List.append_nil, List.mem_map, mem_positions, Prod.mk.injEq]
      constructor
      · rintro ⟨i, hi, rfl, rfl⟩; exact ⟨rfl, hi⟩
      · rintro ⟨rfl, hi⟩; exact ⟨p, hi, rfl, rfl⟩
    · rw [if_neg ht]
      simp only [locsOf, List.flatMap_nil, List.not_mem_nil, false_iff]
      rintro ⟨_, h1, h2⟩
      exact ht (by omega)
  rw [hmem]
  unfold triage
  cases hf : (positions c.dir lo hi).find? fun i => c.stop (b, i) with
  | none =>
    simp only
    have hno : ∀ q, lo ≤ q → q < hi → c.stop (b, q) = false := by
      intro q hq hq'
      simpa using List.find?_eq_none.1 hf q (mem_positions.2 ⟨hq, hq'⟩)
    constructor
    · rintro ⟨rfl, h1, h2⟩
      exact ⟨rfl, h1, h2, fun q hq hq' => hno q hq (by omega), .inr (hno p h1 h2)⟩
    · rintro ⟨rfl, h1, h2, _⟩
      exact ⟨rfl, h1, h2⟩
  | some i =>
    rw [hd] at hf
    obtain ⟨h1, h2, h3, h4⟩ := find?_range' hf
    have hhi : i < hi := by omega
    simp only [hd]
    cases he : c.includeEnd with
    | true =>
      simp only [cut, true_or, and_true]
      constructor
      · rintro ⟨rfl, h5, h6⟩
        exact ⟨rfl, h5, by omega, fun q hq hq' => h4 q hq (by omega)⟩
      · rintro ⟨rfl, h5, h6, h7⟩
        refine ⟨rfl, h5, ?_⟩
        rcases Nat.lt_or_ge p (i + 1) with h | h
        · exact h
        · rw [h7 i h1 (by omega)] at h3; cases h3
    | false =>
      simp only [cut, Bool.false_eq_true, false_or]
      constructor
      · rintro ⟨rfl, h5, h6⟩
        exact ⟨rfl, h5, by omega, fun q hq hq' => h4 q hq (by omega), h4 p h5 h6⟩
      · rintro ⟨rfl, h5, h6, h7, h8⟩
        refine ⟨rfl, h5, ?_⟩
        rcases Nat.lt_trichotomy p i with h | h | h
        · exact h
        · subst h; rw [h8] at h3; cases h3
        · rw [h7 i h1 h] at h3; cases h3

/-! ### The invariant -/

/-- The location comes directly after (in the direction) the other one. Blocks without locations are not entered. -/
inductive Next (G : Graph) : Dir → Loc → Loc → Prop
  | succ {b p} : p + 1 < G.len b → Next G .successors (b, p) (b, p + 1)
  | succEdge {b p t} : p + 1 = G.len b → t ∈ G.succ b → 0 < G.len t → Next G .successors (b, p) (t, 0)
  | pred {b p} : p + 1 < G.len b → Next G .predecessors (b, p + 1) (b, p)
  | predEdge {b t q} : 0 < G.len b → t ∈ G.pred b → q + 1 = G.len t → Next G .predecessors (b, 0) (t, q)

/-- The locations the traversal starts with. -/
def First (G : Graph) (c : Args) (l x : Loc) : Prop := if c.includeStart = true then x = l else Next G c.dir l x

/-- The locations the traversal gets to: those it starts with, and what follows one at which it does not stop. -/
inductive Entered (G : Graph) (c : Args) (starts : List Loc) : Loc → Prop
  | first {l x} : l ∈ starts → First G c l x → Entered G c starts x
  | next {x y} : Entered G c starts x → c.stop x = false → Next G c.dir x y → Entered G c starts y

/-- A part that begins at `lo` is gotten to; if it is empty and at the end of the block, what follows the block is. -/
def Sound (G : Graph) (E : Loc → Prop) (b lo : Nat) : Prop :=
  (lo < G.len b → E (b, lo)) ∧ (lo = G.len b → ∀ t ∈ G.succ b, 0 < G.len t → E (t, 0))

/-- The first location of the block has been visited. -/
def Open (G : Graph) (visited : Nat → Option (Nat × Nat)) (b : Nat) : Prop := G.len b = 0 ∨ visited b = some (0, G.len b)

/-- What the traversal starts with at a location. -/
def Started (c : Args) (pieces : List Piece) (visited : Nat → Option (Nat × Nat)) (l : Loc) : Prop :=
  (∃ hi, (l.1, startLo c l.2, hi) ∈ pieces) ∨ ∃ vf vt, visited l.1 = some (vf, vt) ∧ vf ≤ l.2

structure Inv (G : Graph) (c : Args) (E : Loc → Prop) (started : List Loc) (done pend : List Piece) (act : List Frame)
    (visited : Nat → Option (Nat × Nat)) (out : List Piece) : Prop where
  out : out = done.flatMap fun p => yielding (triage c p.1 p.2.1 p.2.2) p.1
  frames : ∀ f ∈ act, (f.block, f.lo, f.hi) ∈ done ∧ (triage c f.block f.lo f.hi).1 = false ∧
    f.i ≤ (G.succ f.block).length ∧ (f.hi = G.len f.block → ∀ j t, j < f.i → (G.succ f.block)[j]? = some t → Open G visited t)
  vto : ∀ b vf vt, visited b = some (vf, vt) → vt = G.len b ∧ vf ≤ vt
  bound : ∀ p ∈ done ++ pend, ∃ vf, visited p.1 = some (vf, G.len p.1) ∧ vf ≤ p.2.1 ∧ p.2.1 ≤ p.2.2 ∧ p.2.2 ≤ G.len p.1
  cover : ∀ b vf vt, visited b = some (vf, vt) → ∀ q, vf ≤ q → q < G.len b → ∃ lo hi, (b, lo, hi) ∈ done ++ pend ∧ lo ≤ q ∧ q < hi
  disjoint : (done ++ pend).Pairwise fun p q => p.1 = q.1 → p.2.2 ≤ q.2.1 ∨ q.2.2 ≤ p.2.1
  sound : ∀ p ∈ done ++ pend, Sound G E p.1 p.2.1
  expanded : ∀ p ∈ done, (triage c p.1 p.2.1 p.2.2).1 = false → p.2.2 = G.len p.1 →
    (∃ f ∈ act, (f.block, f.lo, f.hi) = p) ∨ ∀ t ∈ G.succ p.1, Open G visited t
  head : ∀ l, started.head? = some l → ∃ hi, (l.1, startLo c l.2, hi) ∈ done ++ pend
  started : ∀ l ∈ started, Started c (done ++ pend) visited l

section
variable {E : Loc → Prop} {started : List Loc} {done pend : List Piece} {act : List Frame}
  {visited : Nat → Option (Nat × Nat)} {out : List Piece}

theorem Started.mono {pieces pieces' : List Piece} {l : Loc} (h : Started c pieces visited l)
    (hp : ∀ p ∈ pieces, p ∈ pieces') : Started c pieces' visited l := by
  rcases h with ⟨hi, h⟩ | h
  · exact .inl ⟨hi, hp _ h⟩
  · exact .inr h

/-- The pending part is looked at, and the traversal stops in it. -/
theorem inv_stop {p : Piece} (h : Inv G c E started done [p] act visited out)
    (hs : (triage c p.1 p.2.1 p.2.2).1 = true) :
    Inv G c E started (done ++ [p]) [] act visited (out ++ yielding (triage c p.1 p.2.1 p.2.2) p.1) where
  out := by rw [h.out]; simp
  frames := fun f hf => by
    obtain ⟨h1, h2, h3, h4⟩ := h.frames f hf
    exact ⟨by simp [h1], h2, h3, h4⟩
  vto := h.vto
  bound := by simpa using h.bound
  cover := by simpa using h.cover
  disjoint := by simpa using h.disjoint
  sound := by simpa using h.sound
  expanded := fun q hq ht hhi => by
    rcases List.mem_append.1 hq with hq | hq
    · exact h.expanded q hq ht hhi
    · simp only [List.mem_singleton] at hq
      subst hq
      rw [hs] at ht
      cases ht
  started := fun l hl => by simpa using h.started l hl
  head := by simpa using h.head

/-- The pending part is looked at, and the traversal does not stop in it. -/
theorem inv_go {p : Piece} (h : Inv G c E started done [p] act visited out)
    (hs : (triage c p.1 p.2.1 p.2.2).1 = false) :
    Inv G c E started (done ++ [p]) [] (⟨p.1, p.2.1, p.2.2, 0⟩ :: act) visited
      (out ++ yielding (triage c p.1 p.2.1 p.2.2) p.1) where
  out := by rw [h.out]; simp
  frames := fun f hf => by
    rcases List.mem_cons.1 hf with rfl | hf
    · exact ⟨by simp, hs, by simp, fun _ j t hj _ => absurd hj (by simp)⟩
    · obtain ⟨h1, h2, h3, h4⟩ := h.frames f hf
      exact ⟨by simp [h1], h2, h3, h4⟩
  vto := h.vto
  bound := by simpa using h.bound
  cover := by simpa using h.cover
  disjoint := by simpa using h.disjoint
  sound := by simpa using h.sound
  expanded := fun q hq ht hhi => by
    rcases List.mem_append.1 hq with hq | hq
    · rcases h.expanded q hq ht hhi with ⟨f, hf, hfe⟩ | he
      · exact .inl ⟨f, by simp [hf], hfe⟩
      · exact .inr he
    · simp only [List.mem_singleton] at hq
      subst hq
      exact .inl ⟨⟨q.1, q.2.1, q.2.2, 0⟩, by simp, rfl⟩
  started := fun l hl => by simpa using h.started l hl
  head := by simpa using h.head

/-- All successors of a block have been looked at. -/
theorem inv_pop {b lo hi i : Nat} (h : Inv G c E started done [] (⟨b, lo, hi, i⟩ :: act) visited out)
    (hn : (G.succ b)[i]? = none) : Inv G c E started done [] act visited out where
  out := h.out
  frames := fun f hf => h.frames f (by simp [hf])
  vto := h.vto
  bound := h.bound
  cover := h.cover
  disjoint := h.disjoint
  sound := h.sound
  expanded := fun q hq ht hhi => by
    rcases h.expanded q hq ht hhi with ⟨f, hf, hfe⟩ | he
    · rcases List.mem_cons.1 hf with rfl | hf
      · refine .inr fun t htm => ?_
        subst hfe
        obtain ⟨k, hk, rfl⟩ := List.mem_iff_getElem.1 htm
        have hlen := List.getElem?_eq_none_iff.1 hn
        exact (h.frames ⟨b, lo, hi, i⟩ (by simp)).2.2.2 hhi k _ (by simp only at hk ⊢; omega) (List.getElem?_eq_getElem hk)
      · exact .inl ⟨f, hf, hfe⟩
    · exact .inr he
  started := h.started
  head := h.head

/-- A successor of a block has been looked at. -/
theorem inv_next {b lo hi i e : Nat} (h : Inv G c E started done pend (⟨b, lo, hi, i⟩ :: act) visited out)
    (hn : (G.succ b)[i]? = some e) (ho : hi = G.len b → Open G visited e) :
    Inv G c E started done pend (⟨b, lo, hi, i + 1⟩ :: act) visited out where
  out := h.out
  frames := fun f hf => by
    rcases List.mem_cons.1 hf with rfl | hf
    · obtain ⟨h1, h2, _, h4⟩ := h.frames ⟨b, lo, hi, i⟩ (by simp)
      obtain ⟨hi', _⟩ := List.getElem?_eq_some_iff.1 hn
      refine ⟨h1, h2, by simp only; omega, fun hhi j t hj ht => ?_⟩
      simp only at hj ht hhi
      by_cases hji : j = i
      · subst hji
        rw [hn, Option.some.injEq] at ht
        subst ht
        exact ho hhi
      · exact h4 hhi j t (by simp only; omega) ht
    · exact h.frames f (by simp [hf])
  vto := h.vto
  bound := h.bound
  cover := h.cover
  disjoint := h.disjoint
  sound := h.sound
  expanded := fun q hq ht hhi => by
    rcases h.expanded q hq ht hhi with ⟨f, hf, hfe⟩ | he
    · rcases List.mem_cons.1 hf with rfl | hf
      · exact .inl ⟨⟨b, lo, hi, i + 1⟩, by simp, hfe⟩
      · exact .inl ⟨f, by simp [hf], hfe⟩
    · exact .inr he
  started := h.started
  head := h.head

/-- A part that ends where what has been visited of the block begins is to be visited. -/
theorem inv_add {e lo hi : Nat} (h : Inv G c E started done [] act visited out)
    (hlo : lo ≤ hi) (hhi : hi ≤ G.len e)
    (hv : (visited e = none ∧ hi = G.len e) ∨ visited e = some (hi, G.len e))
    (hs : Sound G E e lo) :
    Inv G c E started done [(e, lo, hi)] act (setVisited visited e lo (G.len e)) out := by
  have hopen : ∀ t, Open G visited t → Open G (setVisited visited e lo (G.len e)) t := by
    intro t ht
    rcases ht with ht | ht
    · exact .inl ht
    · refine .inr ?_
      unfold setVisited
      by_cases hte : t = e
      · subst hte
        rcases hv with ⟨hv, _⟩ | hv
        · rw [hv] at ht; cases ht
        · rw [hv] at ht
          simp only [Option.some.injEq, Prod.mk.injEq] at ht
          have : lo = 0 := by omega
          simp [this]
      · rw [if_neg hte]; exact ht
  have hold : ∀ p ∈ done, p.1 = e → hi ≤ p.2.1 := by
    intro p hp hpe
    obtain ⟨vf, h1, h2, _⟩ := h.bound p (by simp [hp])
    rw [hpe] at h1
    rcases hv with ⟨hv, _⟩ | hv
    · rw [hv] at h1; cases h1
    · rw [hv] at h1
      simp only [Option.some.injEq, Prod.mk.injEq] at h1
      omega
  refine ⟨h.out, ?_, ?_, ?_, ?_, ?_, ?_, ?_, ?_, ?_⟩
  · intro f hf
    obtain ⟨h1, h2, h3, h4⟩ := h.frames f hf
    exact ⟨h1, h2, h3, fun hh j t hj ht => hopen t (h4 hh j t hj ht)⟩
  · intro b vf vt hb
    unfold setVisited at hb
    by_cases hbe : b = e
    · subst hbe
      simp only [if_true, Option.some.injEq, Prod.mk.injEq] at hb
      omega
    · rw [if_neg hbe] at hb
      exact h.vto b vf vt hb
  · intro p hp
    rcases List.mem_append.1 hp with hp | hp
    · obtain ⟨vf, h1, h2, h3, h4⟩ := h.bound p (by simp [hp])
      unfold setVisited
      by_cases hpe : p.1 = e
      · have := hold p hp hpe
        exact ⟨lo, by simp [hpe], by omega, h3, h4⟩
      · exact ⟨vf, by simp [hpe, h1], h2, h3, h4⟩
    · simp only [List.mem_singleton] at hp
      subst hp
      exact ⟨lo, by simp [setVisited], Nat.le_refl _, hlo, hhi⟩
  · intro b vf vt hb q hq hq'
    unfold setVisited at hb
    by_cases hbe : b = e
    · subst hbe
      simp only [if_true, Option.some.injEq, Prod.mk.injEq] at hb
      obtain ⟨rfl, rfl⟩ := hb
      rcases Nat.lt_or_ge q hi with hqh | hqh
      · exact ⟨lo, hi, by simp, hq, hqh⟩
      · rcases hv with ⟨_, hv⟩ | hv
        · omega
        · obtain ⟨lo', hi', hm, h1, h2⟩ := h.cover b hi _ hv q hqh hq'
          exact ⟨lo', hi', by simp only [List.append_nil] at hm; simp [hm], h1, h2⟩
    · rw [if_neg hbe] at hb
      obtain ⟨lo', hi', hm, h1, h2⟩ := h.cover b vf vt hb q hq hq'
      exact ⟨lo', hi', by simp only [List.append_nil] at hm; simp [hm], h1, h2⟩
  · rw [List.pairwise_append]
    refine ⟨by simpa using h.disjoint, by simp, fun p hp q hq hpq => ?_⟩
    simp only [List.mem_singleton] at hq
    subst hq
    exact .inr (hold p hp hpq)
  · intro p hp
    rcases List.mem_append.1 hp with hp | hp
    · exact h.sound p (by simp [hp])
    · simp only [List.mem_singleton] at hp
      subst hp
      exact hs
  · intro p hp ht hh
    rcases h.expanded p hp ht hh with hf | he
    · exact .inl hf
    · exact .inr fun t htm => hopen t (he t htm)
  · intro l hl
    obtain ⟨hi', hm⟩ := h.head l hl
    exact ⟨hi', by simp only [List.append_nil] at hm; simp [hm]⟩
  · intro l hl
    rcases h.started l hl with ⟨hi', hm⟩ | ⟨vf, vt, h1, h2⟩
    · exact .inl ⟨hi', by simp only [List.append_nil] at hm; simp [hm]⟩
    · refine .inr ?_
      unfold setVisited
      by_cases hle : l.1 = e
      · rcases hv with ⟨hv, _⟩ | hv
        · rw [hle, hv] at h1; cases h1
        · rw [hle, hv] at h1
          simp only [Option.some.injEq, Prod.mk.injEq] at h1
          exact ⟨lo, G.len e, by simp [hle], by omega⟩
      · exact ⟨vf, vt, by simp [hle, h1], h2⟩

/-- What follows a part that is gotten to and in which the traversal does not stop. -/
theorem sound_edge (hnext : ∀ x y, E x → c.stop x = false → Next G .successors x y → E y) {b lo : Nat}
    (hs : Sound G E b lo) (hlo : lo ≤ G.len b) (ht : (triage c b lo (G.len b)).1 = false) {e : Nat} (he : e ∈ G.succ b)
    (hlen : 0 < G.len e) : E (e, 0) := by
  rcases Nat.lt_or_ge lo (G.len b) with h | h
  · have hstop := triage_false.1 ht
    have hall : ∀ k, lo + k < G.len b → E (b, lo + k) := by
      intro k
      induction k with
      | zero => intro _; exact hs.1 h
      | succ k ih =>
        intro hk
        exact hnext (b, lo + k) _ (ih (by omega)) (hstop _ (by omega) (by omega)) (.succ (by omega))
    have := hall (G.len b - 1 - lo) (by omega)
    rw [show lo + (G.len b - 1 - lo) = G.len b - 1 by omega] at this
    exact hnext _ _ this (hstop _ (by omega) (by omega)) (.succEdge (by omega) he hlen)
  · exact hs.2 (by omega) e he hlen

end

/-! ### The invariant of the state -/

/-- The invariant of the state: the top of the stack may be a part that has not been looked at. -/
def Good (G : Graph) (c : Args) (E : Loc → Prop) (started : List Loc) (s : State) : Prop :=
  (started = [] → s.stack = [] ∧ ∀ b, s.visited b = none) ∧ (∀ f ∈ s.stack.tail, f.i ≠ 0) ∧ ∃ done,
    ((∀ f ∈ s.stack, f.i ≠ 0) ∧ Inv G c E started done [] s.stack s.visited s.out) ∨
    ∃ b lo hi rest, s.stack = ⟨b, lo, hi, 0⟩ :: rest ∧ Inv G c E started done [(b, lo, hi)] rest s.visited s.out

theorem good_expand {E : Loc → Prop} {started : List Loc} (hd : c.dir = .successors)
    (hnext : ∀ x y, E x → c.stop x = false → Next G .successors x y → E y) {done : List Piece} {s : State} {b lo hi i : Nat}
    (hne : started ≠ []) (hrest : ∀ f ∈ s.stack, f.i ≠ 0)
    (h : Inv G c E started done [] (⟨b, lo, hi, i⟩ :: s.stack) s.visited s.out) :
    ∃ s', expand G c s b lo hi i = .ok s' ∧ s'.todo = s.todo ∧ Good G c E started s' := by
  unfold expand
  simp only [hd, Graph.essors]
  cases hn : (G.succ b)[i]? with
  | none =>
    exact ⟨s, rfl, rfl, (fun hs => absurd hs hne), fun f hf => hrest f (List.mem_of_mem_tail hf), done, .inl ⟨hrest, inv_pop h hn⟩⟩
  | some e =>
    simp only
    have hframes : ∀ f ∈ (⟨b, lo, hi, i + 1⟩ :: s.stack : List Frame), f.i ≠ 0 := by
      intro f hf
      rcases List.mem_cons.1 hf with rfl | hf
      · simp
      · exact hrest f hf
    by_cases hend : hi = G.len b
    · simp only [atEnd, hend, decide_true, if_true]
      have hem : e ∈ G.succ b := List.mem_of_getElem? hn
      unfold enter
      by_cases hlen : G.len e = 0
      · rw [if_pos hlen]
        refine ⟨_, rfl, rfl, (fun hs => absurd hs hne), fun f hf => hframes f (by subst hend; exact List.mem_of_mem_tail hf), done,
          .inl ⟨fun f hf => hframes f (by subst hend; exact hf), ?_⟩⟩
        subst hend
        exact inv_next h hn fun _ => .inl hlen
      · rw [if_neg hlen]
        obtain ⟨hdone, htr, _⟩ := h.frames ⟨b, lo, hi, i⟩ (by simp)
        obtain ⟨vf, _, _, hlohi, _⟩ := h.bound (b, lo, hi) (by simp only [List.append_nil]; exact hdone)
        have hsb := h.sound (b, lo, hi) (by simp only [List.append_nil]; exact hdone)
        subst hend
        have hE : Sound G E e 0 :=
          ⟨fun _ => sound_edge hnext hsb hlohi htr hem (by omega), fun h0 => by omega⟩
        cases hv : s.visited e with
        | none =>
          simp only
          have h1 := inv_add (e := e) (lo := 0) (hi := G.len e) h (by omega) (Nat.le_refl _) (.inl ⟨hv, rfl⟩) hE
          have h2 := inv_next h1 hn fun _ => .inr (by simp [setVisited])
          exact ⟨_, rfl, rfl, (fun hs => absurd hs hne), fun f hf => hframes f hf, done, .inr ⟨e, 0, G.len e, _, rfl, h2⟩⟩
        | some v =>
          obtain ⟨vfrom, vto⟩ := v
          obtain ⟨rfl, hvle⟩ := h.vto e vfrom vto hv
          simp only [and_true]
          by_cases h0 : vfrom = 0
          · rw [if_pos h0]
            subst h0
            exact ⟨_, rfl, rfl, (fun hs => absurd hs hne), fun f hf => hframes f (List.mem_of_mem_tail hf), done,
              .inl ⟨hframes, inv_next h hn fun _ => .inr hv⟩⟩
          · rw [if_neg h0, hd]
            simp only [if_true]
            have h1 := inv_add (e := e) (lo := 0) (hi := vfrom) h (by omega) hvle (.inr hv) hE
            have h2 := inv_next h1 hn fun _ => .inr (by simp [setVisited])
            exact ⟨_, rfl, rfl, (fun hs => absurd hs hne), fun f hf => hframes f hf, done, .inr ⟨e, 0, vfrom, _, rfl, h2⟩⟩
    · simp only [atEnd, hend, decide_false, Bool.false_eq_true, if_false]
      exact ⟨_, rfl, rfl, (fun hs => absurd hs hne), fun f hf => hframes f (List.mem_of_mem_tail hf), done,
        .inl ⟨hframes, inv_next h hn fun hh => absurd hh hend⟩⟩

/-- The traversal from another location has been started. -/
theorem inv_started {E : Loc → Prop} {started : List Loc} {done pend : List Piece} {act : List Frame}
    {visited : Nat → Option (Nat × Nat)} {out : List Piece} {l : Loc} (h : Inv G c E started done pend act visited out)
    (hl : Started c (done ++ pend) visited l)
    (hfirst : started = [] → ∃ hi, (l.1, startLo c l.2, hi) ∈ done ++ pend) : Inv G c E (started ++ [l]) done pend act visited out :=
  ⟨h.out, h.frames, h.vto, h.bound, h.cover, h.disjoint, h.sound, h.expanded, fun x hx => by
    cases started with
    | nil =>
      simp only [List.nil_append, List.head?_cons, Option.some.injEq] at hx
      subst hx
      exact hfirst rfl
    | cons y ys => exact h.head x (by simpa using hx),
   fun x hx => by
    rcases List.mem_append.1 hx with hx | hx
    · exact h.started x hx
    · simp only [List.mem_singleton] at hx
      subst hx
      exact hl⟩

theorem good_begin {E : Loc → Prop} {started : List Loc} (hd : c.dir = .successors) {s : State} {l : Loc} {done : List Piece}
    (hl : l.2 < G.len l.1) (hfirst : ∀ x, First G c l x → E x) (hstack : s.stack = [])
    (hfresh : started = [] → ∀ b, s.visited b = none)
    (h : Inv G c E started done [] [] s.visited s.out) :
    ∃ s', begin G c s l = .ok s' ∧ s'.todo = s.todo ∧ Good G c E (started ++ [l]) s' := by
  obtain ⟨b, pos⟩ := l
  simp only at hl
  unfold begin
  simp only [hd]
  rw [if_neg (by omega)]
  have hs : Sound G E b (startLo c pos) := by
    unfold startLo
    by_cases hi : c.includeStart = true
    · simp only [hi, if_true]
      exact ⟨fun _ => hfirst _ (by simp [First, hi]), fun h0 => by omega⟩
    · rw [if_neg hi]
      refine ⟨fun h0 => hfirst _ ?_, fun h0 t ht hlen => hfirst _ ?_⟩
      · rw [First, if_neg hi, hd]; exact .succ h0
      · rw [First, if_neg hi, hd]; exact .succEdge h0 ht hlen
  have hle : startLo c pos ≤ pos + 1 ∧ pos ≤ startLo c pos := by
    unfold startLo; split <;> omega
  cases hv : s.visited b with
  | none =>
    simp only
    have h1 := inv_add (e := b) (lo := startLo c pos) (hi := G.len b) h (by omega) (Nat.le_refl _) (.inl ⟨hv, rfl⟩) hs
    exact ⟨_, rfl, rfl, by simp, by simp, done, .inr ⟨b, startLo c pos, G.len b, [], rfl,
      inv_started h1 (.inl ⟨G.len b, by simp⟩) fun _ => ⟨G.len b, by simp⟩⟩⟩
  | some v =>
    obtain ⟨vfrom, vto⟩ := v
    obtain ⟨rfl, hvle⟩ := h.vto b vfrom vto hv
    have hne : started ≠ [] := fun hs => by rw [hfresh hs b] at hv; cases hv
    simp only
    by_cases hin : vfrom ≤ pos
    · rw [if_pos ⟨hin, hl⟩]
      refine ⟨_, rfl, rfl, by simp, by simp [hstack], done, .inl ⟨by simp [hstack], ?_⟩⟩
      rw [hstack]
      exact inv_started h (.inr ⟨vfrom, _, hv, hin⟩) fun hs => absurd hs hne
    · rw [if_neg (fun h => hin h.1)]
      simp only [if_true]
      have h1 := inv_add (e := b) (lo := startLo c pos) (hi := vfrom) h (by omega) hvle (.inr hv) hs
      exact ⟨_, rfl, rfl, by simp, by simp, done, .inr ⟨b, startLo c pos, vfrom, [], rfl,
        inv_started h1 (.inl ⟨vfrom, by simp⟩) fun hs => absurd hs hne⟩⟩

/-- Steps keep the invariant and raise no exception. -/
theorem good_step {starts started : List Loc} (hd : c.dir = .successors) {s : State}
    (hlocs : ∀ l ∈ starts, l.2 < G.len l.1) (hsub : starts = started ++ s.todo)
    (h : Good G c (Entered G c starts) started s) :
    ∃ s' started', step G c s = .ok s' ∧ starts = started' ++ s'.todo ∧ Good G c (Entered G c starts) started' s' := by
  have hnext : ∀ x y, Entered G c starts x → c.stop x = false → Next G .successors x y → Entered G c starts y :=
    fun x y hx hs hxy => .next hx hs (hd ▸ hxy)
  obtain ⟨hfresh, htail, done, hcase⟩ := h
  unfold step
  cases hst : s.stack with
  | nil =>
    have hinv : Inv G c (Entered G c starts) started done [] [] s.visited s.out := by
      rcases hcase with ⟨_, h⟩ | ⟨b, lo, hi, rest, h, _⟩
      · rw [hst] at h; exact h
      · rw [hst] at h; cases h
    cases htd : s.todo with
    | nil =>
      simp only
      exact ⟨s, started, rfl, hsub, hfresh, htail, done, hcase⟩
    | cons l todo =>
      simp only
      rw [htd] at hsub
      have hmem : l ∈ starts := by rw [hsub]; simp
      obtain ⟨s', h1, h2, h3⟩ := good_begin (s := { s with todo := todo }) hd (hlocs l hmem)
        (fun x hx => .first hmem hx) hst (fun hs => (hfresh hs).2) hinv
      simp only [hst] at h1
      exact ⟨s', started ++ [l], h1, by rw [h2]; simpa using hsub, h3⟩
  | cons f rest =>
    simp only
    have hne : started ≠ [] := fun hs => by have := (hfresh hs).1; rw [hst] at this; cases this
    rw [hst] at htail
    simp only [List.tail_cons] at htail
    unfold advance
    rcases hcase with ⟨hall, h⟩ | ⟨b, lo, hi, rest', heq, h⟩
    · rw [hst] at h hall
      obtain ⟨b, lo, hi, i⟩ := f
      have hi0 : i ≠ 0 := hall ⟨b, lo, hi, i⟩ (by simp)
      simp only
      rw [if_neg hi0]
      obtain ⟨s', h1, h2, h3⟩ := good_expand (s := { s with stack := rest }) hd hnext hne htail h
      exact ⟨s', started, h1, by rw [h2]; exact hsub, h3⟩
    · rw [hst] at heq
      obtain ⟨rfl, rfl⟩ := List.cons.inj heq
      simp only [if_true]
      cases ht : (triage c b lo hi).1 with
      | true =>
        simp only [if_true]
        exact ⟨_, started, rfl, hsub, (fun hs => absurd hs hne), fun f hf => htail f (List.mem_of_mem_tail hf), _, .inl ⟨htail, inv_stop h ht⟩⟩
      | false =>
        simp only [Bool.false_eq_true, if_false]
        have hgo := inv_go h ht
        rw [triage_of_false ht] at hgo ⊢
        obtain ⟨s', h1, h2, h3⟩ := good_expand (s := { s with stack := rest, out := s.out ++ yielding (false, lo, hi) b })
          hd hnext hne htail hgo
        exact ⟨s', started, h1, by rw [h2]; exact hsub, h3⟩

theorem good_init {E : Loc → Prop} (starts : List Loc) : Good G c E [] (init starts) := by
  refine ⟨by simp [init], by simp [init], [], .inl ⟨by simp [init], ?_⟩⟩
  exact ⟨rfl, by simp [init], by simp [init], by simp, by simp [init], by simp, by simp, by simp, by simp, by simp⟩

theorem good_run {starts : List Loc} (hd : c.dir = .successors) (hlocs : ∀ l ∈ starts, l.2 < G.len l.1) :
    ∀ (n : Nat) (s : State) (started : List Loc), starts = started ++ s.todo → Good G c (Entered G c starts) started s →
    ∃ s' started', run G c n s = .ok s' ∧ starts = started' ++ s'.todo ∧ Good G c (Entered G c starts) started' s'
  | 0, s, started, hsub, h => ⟨s, started, rfl, hsub, h⟩
  | n + 1, s, started, hsub, h => by
    obtain ⟨s', started', h1, h2, h3⟩ := good_step hd hlocs hsub h
    simp only [run, h1]
    exact good_run hd hlocs n s' started' h2 h3

/-! ### The end of the traversal -/

section
variable {E : Loc → Prop} {started : List Loc} {done : List Piece} {visited : Nat → Option (Nat × Nat)} {out : List Piece}

/-- The traversal got to the location. -/
def Scanned (c : Args) (done : List Piece) (x : Loc) : Prop :=
  ∃ lo hi, (x.1, lo, hi) ∈ done ∧ lo ≤ x.2 ∧ x.2 < hi ∧ ∀ q, lo ≤ q → q < x.2 → c.stop (x.1, q) = false

theorem mem_out (hd : c.dir = .successors) (h : Inv G c E started done [] [] visited out) (x : Loc) :
    x ∈ locsOf c.dir out ↔ Scanned c done x ∧ (c.includeEnd = true ∨ c.stop x = false) := by
  have hflat : ∀ l : List Piece, x ∈ locsOf c.dir (l.flatMap fun p => yielding (triage c p.1 p.2.1 p.2.2) p.1) ↔
      ∃ p ∈ l, x ∈ locsOf c.dir (yielding (triage c p.1 p.2.1 p.2.2) p.1) := by
    intro l
    simp only [locsOf, List.flatMap_assoc, List.mem_flatMap]
  rw [h.out, hflat]
  constructor
  · rintro ⟨⟨b, lo, hi⟩, hp, hx⟩
    obtain ⟨h1, h2, h3, h4, h5⟩ := (mem_yielding hd x).1 hx
    simp only at h1 h2 h3 h4
    exact ⟨⟨lo, hi, by rw [h1]; exact hp, h2, h3, by rw [h1]; exact h4⟩, h5⟩
  · rintro ⟨⟨lo, hi, hp, h2, h3, h4⟩, h5⟩
    exact ⟨_, hp, (mem_yielding hd x).2 ⟨rfl, h2, h3, h4, h5⟩⟩

theorem scanned_entered (hnext : ∀ x y, E x → c.stop x = false → Next G .successors x y → E y)
    (h : Inv G c E started done [] [] visited out) {x : Loc} (hx : Scanned c done x) : E x := by
  obtain ⟨b, p⟩ := x
  obtain ⟨lo, hi, hp, h2, h3, h4⟩ := hx
  simp only at hp h2 h3 h4
  obtain ⟨vf, _, _, h5, h6⟩ := h.bound _ (by simp only [List.append_nil]; exact hp)
  simp only at h5 h6
  have hs := h.sound _ (by simp only [List.append_nil]; exact hp)
  have hall : ∀ k, lo + k ≤ p → E (b, lo + k) := by
    intro k
    induction k with
    | zero => intro _; exact hs.1 (by simp only; omega)
    | succ k ih =>
      intro hk
      exact hnext _ _ (ih (by omega)) (h4 _ (by omega) (by omega)) (.succ (by omega))
  have := hall (p - lo) (by omega)
  rwa [show lo + (p - lo) = p by omega] at this

theorem disjoint_of (h : Inv G c E started done [] [] visited out) {p q : Piece} (hp : p ∈ done) (hq : q ∈ done)
    (hpq : p ≠ q) (hb : p.1 = q.1) : p.2.2 ≤ q.2.1 ∨ q.2.2 ≤ p.2.1 := by
  have hd := h.disjoint
  simp only [List.append_nil] at hd
  have hall : ∀ {l : List Piece}, (l.Pairwise fun p q => p.1 = q.1 → p.2.2 ≤ q.2.1 ∨ q.2.2 ≤ p.2.1) →
      ∀ {p q : Piece}, p ∈ l → q ∈ l → p ≠ q → p.1 = q.1 → p.2.2 ≤ q.2.1 ∨ q.2.2 ≤ p.2.1 := by
    intro l hl
    induction hl with
    | nil => intro p q hp; cases hp
    | @cons a l ha _ ih =>
      intro p q hp hq hne hb
      rcases List.mem_cons.1 hp with hpa | hpl
      · rcases List.mem_cons.1 hq with hqa | hql
        · exact absurd (hpa.trans hqa.symm) hne
        · subst hpa; exact ha q hql hb
      · rcases List.mem_cons.1 hq with hqa | hql
        · subst hqa; exact (ha p hpl hb.symm).symm
        · exact ih hpl hql hne hb
  exact hall hd hp hq hpq hb

/-- Where a part ends within a block, another one begins. -/
theorem follow (h : Inv G c E started done [] [] visited out) {b lo hi : Nat} (hp : (b, lo, hi) ∈ done)
    (hhi : hi < G.len b) : ∃ hi', (b, hi, hi') ∈ done ∧ hi < hi' := by
  obtain ⟨vf, h1, h2, h3, h4⟩ := h.bound _ (by simp only [List.append_nil]; exact hp)
  simp only at h1 h2 h3 h4
  obtain ⟨lo', hi', h5, h6, h7⟩ := h.cover b vf _ h1 hi (by omega) hhi
  simp only [List.append_nil] at h5
  have hd := disjoint_of h hp h5 (by simp only [ne_eq, Prod.mk.injEq, not_and]; intro _ _ h; omega) rfl
  simp only at hd
  have : lo' = hi := by omega
  subst this
  exact ⟨hi', h5, h7⟩

theorem scanned_begin (h : Inv G c E started done [] [] visited out) {b lo hi : Nat} (hp : (b, lo, hi) ∈ done)
    (hlo : lo < G.len b) : Scanned c done (b, lo) := by
  obtain ⟨vf, h1, h2, h3, h4⟩ := h.bound _ (by simp only [List.append_nil]; exact hp)
  simp only at h1 h2 h3 h4
  rcases Nat.lt_or_ge lo hi with hlt | hge
  · exact ⟨lo, hi, hp, Nat.le_refl _, hlt, fun q hq hq' => by simp only at hq'; omega⟩
  · have : hi = lo := by omega
    subst this
    obtain ⟨hi', h5, h6⟩ := follow h hp hlo
    exact ⟨hi, hi', h5, Nat.le_refl _, h6, fun q hq hq' => by simp only at hq'; omega⟩

theorem scanned_open (h : Inv G c E started done [] [] visited out) {b : Nat} (ho : Open G visited b) (hlen : 0 < G.len b) :
    Scanned c done (b, 0) := by
  rcases ho with ho | ho
  · omega
  · obtain ⟨lo, hi, h5, h6, h7⟩ := h.cover b 0 _ ho 0 (Nat.le_refl _) hlen
    simp only [List.append_nil] at h5
    exact ⟨lo, hi, h5, h6, h7, fun q hq hq' => by simp only at hq'; omega⟩

theorem open_succ (h : Inv G c E started done [] [] visited out) {b lo : Nat} (hp : (b, lo, G.len b) ∈ done)
    (ht : (triage c b lo (G.len b)).1 = false) {t : Nat} (htm : t ∈ G.succ b) : Open G visited t := by
  rcases h.expanded _ hp ht rfl with ⟨f, hf, _⟩ | he
  · cases hf
  · exact he t htm

/-- The traversal gets to what comes after a location at which it does not stop. -/
theorem scanned_next (h : Inv G c E started done [] [] visited out) {x y : Loc} (hx : Scanned c done x)
    (hstop : c.stop x = false) (hxy : Next G .successors x y) : Scanned c done y := by
  obtain ⟨lo, hi, hp, h2, h3, h4⟩ := hx
  obtain ⟨vf, h5, h6, h7, h8⟩ := h.bound _ (by simp only [List.append_nil]; exact hp)
  simp only at h5 h6 h7 h8
  cases hxy with
  | @succ b p hlt =>
    simp only at hp h2 h3 h4 h5 h8
    rcases Nat.lt_or_ge (p + 1) hi with hlt' | hge
    · refine ⟨lo, hi, hp, by simp only; omega, hlt', fun q hq hq' => ?_⟩
      simp only at hq'
      by_cases hqp : q = p
      · rw [hqp]; exact hstop
      · exact h4 q hq (by omega)
    · have : hi = p + 1 := by omega
      subst this
      obtain ⟨hi', h9, h10⟩ := follow h hp hlt
      exact ⟨p + 1, hi', h9, Nat.le_refl _, h10, fun q hq hq' => by simp only at hq'; omega⟩
  | @succEdge b p t hlast ht hlen =>
    simp only at hp h2 h3 h4 h5 h8
    have : hi = G.len b := by omega
    subst this
    refine scanned_open h (open_succ h hp (triage_false.2 fun q hq hq' => ?_) ht) hlen
    by_cases hqp : q = p
    · rw [hqp]; exact hstop
    · exact h4 q hq (by omega)

/-- Where the traversal never stops, it got to all that has been visited. -/
theorem scanned_of_visited (h : Inv G c E started done [] [] visited out) (hno : ∀ x, c.stop x = false) {b vf vt q : Nat}
    (hv : visited b = some (vf, vt)) (hq : vf ≤ q) (hq' : q < G.len b) : Scanned c done (b, q) := by
  obtain ⟨lo, hi, h5, h6, h7⟩ := h.cover b vf _ hv q hq hq'
  simp only [List.append_nil] at h5
  exact ⟨lo, hi, h5, h6, h7, fun _ _ _ => hno _⟩

/-- The traversal gets to what it starts with. -/
theorem scanned_first (hd : c.dir = .successors) (h : Inv G c E started done [] [] visited out) {l x : Loc}
    (hl : l.2 < G.len l.1) (hs : (∃ hi, (l.1, startLo c l.2, hi) ∈ done) ∨
      (∀ x, c.stop x = false) ∧ Started c done visited l) (hx : First G c l x) :
    Scanned c done x := by
  obtain ⟨b, p⟩ := l
  simp only at hl hs
  have hs : (∃ hi, (b, startLo c p, hi) ∈ done) ∨
      (∀ x, c.stop x = false) ∧ ∃ vf vt, visited b = some (vf, vt) ∧ vf ≤ p := by
    rcases hs with hs | ⟨hno, hs | hs⟩
    · exact .inl hs
    · exact .inl hs
    · exact .inr ⟨hno, hs⟩
  unfold First at hx
  by_cases hinc : c.includeStart = true
  · rw [if_pos hinc] at hx
    subst hx
    have hlo : startLo c p = p := by simp [startLo, hinc]
    rw [hlo] at hs
    rcases hs with ⟨hi, hs⟩ | ⟨hno, vf, vt, h1, h2⟩
    · exact scanned_begin h hs hl
    · exact scanned_of_visited h hno h1 h2 hl
  · rw [if_neg hinc, hd] at hx
    have hlo : startLo c p = p + 1 := by simp [startLo, hinc]
    rw [hlo] at hs
    rcases hs with ⟨hi, hs⟩ | ⟨hno, vf, vt, h1, h2⟩
    · obtain ⟨vf, h5, h6, h7, h8⟩ := h.bound _ (by simp only [List.append_nil]; exact hs)
      simp only at h5 h6 h7 h8
      cases hx with
      | succ hlt => exact scanned_begin h hs hlt
      | succEdge hlast ht hlen =>
        have : hi = G.len b := by omega
        subst this
        exact scanned_open h (open_succ h hs (triage_false.2 fun q hq hq' => by omega) ht) hlen
    · exact scanned_next h (scanned_of_visited h hno h1 h2 hl) (hno _) hx

end

theorem nodup_positions (dir : Dir) (lo hi : Nat) : (positions dir lo hi).Nodup := by
  cases dir with
  | successors => exact List.nodup_range' ..
  | predecessors =>
    exact List.pairwise_reverse.2 ((List.nodup_range' (s := lo) (n := hi - lo) ..).imp fun h => Ne.symm h)

/-- No location is yielded twice. -/
theorem nodup_out {E : Loc → Prop} {started : List Loc} {done : List Piece} {visited : Nat → Option (Nat × Nat)}
    {out : List Piece} (hd : c.dir = .successors) (h : Inv G c E started done [] [] visited out) :
    (locsOf c.dir out).Nodup := by
  rw [h.out]
  have hdis := h.disjoint
  simp only [List.append_nil] at hdis
  have hone : ∀ p : Piece, (locsOf c.dir (yielding (triage c p.1 p.2.1 p.2.2) p.1)).Nodup := by
    intro p
    unfold yielding
    split
    · simp only [locsOf, List.flatMap_cons, List.flatMap_nil, List.append_nil]
      refine List.pairwise_map.2 ((nodup_positions _ _ _).imp fun hab h => hab ?_)
      simpa using h
    · exact List.nodup_nil
  clear h
  induction hdis with
  | nil => exact List.nodup_nil
  | @cons p l hp hl ih =>
    have happ : locsOf c.dir ((p :: l).flatMap fun p => yielding (triage c p.1 p.2.1 p.2.2) p.1) =
        locsOf c.dir (yielding (triage c p.1 p.2.1 p.2.2) p.1) ++
          locsOf c.dir (l.flatMap fun p => yielding (triage c p.1 p.2.1 p.2.2) p.1) := by
      simp [locsOf, List.flatMap_append]
    rw [happ, List.nodup_append]
    refine ⟨hone p, ih, fun x hx y hy hxy => ?_⟩
    subst hxy
    obtain ⟨h1, h2, h3, _⟩ := (mem_yielding hd x).1 hx
    simp only [locsOf, List.flatMap_assoc, List.mem_flatMap] at hy
    obtain ⟨q, hq, t, ht, hy⟩ := hy
    have hy' : x ∈ locsOf c.dir (yielding (triage c q.1 q.2.1 q.2.2) q.1) := by
      simp only [locsOf, List.mem_flatMap]
      exact ⟨t, ht, hy⟩
    obtain ⟨h4, h5, h6, _⟩ := (mem_yielding hd x).1 hy'
    rcases hp q hq (by rw [← h1, ← h4]) with h | h <;> omega

/-! ### Termination -/

def weight (v : Option (Nat × Nat)) : Nat :=
  match v with
  | some (0, _) => 0
  | _ => 1

/-- What is left to do: edges of the blocks on the stack, blocks not visited from the beginning, and starts. -/
def potential (G : Graph) (dir : Dir) (nodes : List Nat) (s : State) : Nat :=
  (s.stack.map fun f => (G.essors dir f.block).length + 1 - f.i).sum +
    (nodes.map fun b => weight (s.visited b) * ((G.essors dir b).length + 2)).sum +
    (s.todo.map fun l => (G.essors dir l.1).length + 2).sum

theorem sum_le {α : Type} {f g : α → Nat} : ∀ {l : List α}, (∀ x ∈ l, f x ≤ g x) → (l.map f).sum ≤ (l.map g).sum
  | [], _ => by simp
  | x :: l, h => by
    have h1 := h x (by simp)
    have h2 := sum_le (l := l) fun y hy => h y (by simp [hy])
    simp only [List.map_cons, List.sum_cons]
    omega

theorem sum_add_le {α : Type} {f g : α → Nat} {d : Nat} {a : α} : ∀ {l : List α}, (∀ x ∈ l, f x ≤ g x) → a ∈ l →
    f a + d ≤ g a → (l.map f).sum + d ≤ (l.map g).sum
  | [], _, h, _ => by cases h
  | x :: l, h, ha, hd => by
    have h1 := h x (by simp)
    simp only [List.map_cons, List.sum_cons]
    rcases List.mem_cons.1 ha with rfl | ha
    · have h2 := sum_le (l := l) fun y hy => h y (by simp [hy])
      omega
    · have h2 := sum_add_le (l := l) (fun y hy => h y (by simp [hy])) ha hd
      omega

/-- Blocks of the stack and the starts are among the blocks. -/
structure InNodes (nodes : List Nat) (s : State) : Prop where
  stack : ∀ f ∈ s.stack, f.block ∈ nodes
  todo : ∀ l ∈ s.todo, l.1 ∈ nodes

theorem weight_le (v : Option (Nat × Nat)) : weight v ≤ 1 := by
  unfold weight; split <;> omega

theorem weight_set (visited : Nat → Option (Nat × Nat)) (b lo hi : Nat) (h : weight (visited b) = 1) (x : Nat) :
    weight (setVisited visited b lo hi x) ≤ weight (visited x) := by
  unfold setVisited
  split
  · subst_vars; rw [h]; exact weight_le _
  · exact Nat.le_refl _

theorem potential_enter {nodes : List Nat} {s s' : State} {e : Nat} (he : e ∈ nodes) (hin : InNodes nodes s)
    (hd : c.dir = .successors) (h : enter G c s e = .ok s') :
    potential G c.dir nodes s' ≤ potential G c.dir nodes s ∧ InNodes nodes s' := by
  have hpush : ∀ lo hi, weight (s.visited e) = 1 → potential G c.dir nodes (s.push G e lo hi) ≤ potential G c.dir nodes s ∧
      InNodes nodes (s.push G e lo hi) := by
    intro lo hi hw
    refine ⟨?_, ⟨fun f hf => ?_, hin.todo⟩⟩
    · simp only [potential, State.push, List.map_cons, List.sum_cons]
      have := sum_add_le (l := nodes)
        (f := fun b => weight (setVisited s.visited e 0 (G.len e) b) * ((G.essors c.dir b).length + 2))
        (g := fun b => weight (s.visited b) * ((G.essors c.dir b).length + 2)) (d := (G.essors c.dir e).length + 2) (a := e)
        (fun x _ => Nat.mul_le_mul_right _ (weight_set _ _ _ _ hw x)) he (by simp only [hw, setVisited, if_true]; simp [weight])
      omega
    · rcases List.mem_cons.1 hf with rfl | hf
      · exact he
      · exact hin.stack f hf
  unfold enter at h
  split at h
  · simp only [Except.ok.injEq] at h
    subst h
    exact ⟨Nat.le_refl _, hin⟩
  · split at h
    · rename_i hv
      simp only [Except.ok.injEq] at h
      subst h
      exact hpush _ _ (by rw [hv]; rfl)
    · rename_i vfrom vto hv
      split at h
      · simp only [Except.ok.injEq] at h
        subst h
        exact ⟨Nat.le_refl _, hin⟩
      · rename_i hne
        rw [hd] at h
        simp only at h
        split at h
        · rename_i hto
          simp only [Except.ok.injEq] at h
          subst h
          refine hpush _ _ ?_
          rw [hv]
          cases vfrom with
          | zero => exact absurd ⟨rfl, hto⟩ hne
          | succ n => rfl
        · cases h

theorem potential_expand {nodes : List Nat} {s s' : State} {b lo hi i : Nat} (hd : c.dir = .successors)
    (hclosed : ∀ b ∈ nodes, ∀ t ∈ G.succ b, t ∈ nodes) (hb : b ∈ nodes) (hin : InNodes nodes s)
    (h : expand G c s b lo hi i = .ok s') :
    potential G c.dir nodes s' < potential G c.dir nodes s + ((G.succ b).length + 1 - i) + (if i ≤ (G.succ b).length then 0 else 1) ∧
      InNodes nodes s' := by
  unfold expand at h
  simp only [hd, Graph.essors] at h
  cases hn : (G.succ b)[i]? with
  | none =>
    rw [hn] at h
    simp only [Except.ok.injEq] at h
    subst h
    refine ⟨?_, hin⟩
    split <;> omega
  | some e =>
    obtain ⟨hilt, _⟩ := List.getElem?_eq_some_iff.1 hn
    rw [hn] at h
    simp only at h
    have hp : potential G c.dir nodes { s with stack := ⟨b, lo, hi, i + 1⟩ :: s.stack } =
        potential G c.dir nodes s + ((G.succ b).length - i) := by
      simp only [potential, hd, Graph.essors, List.map_cons, List.sum_cons]
      omega
    have hin' : InNodes nodes { s with stack := ⟨b, lo, hi, i + 1⟩ :: s.stack } := by
      refine ⟨fun f hf => ?_, hin.todo⟩
      rcases List.mem_cons.1 hf with rfl | hf
      · exact hb
      · exact hin.stack f hf
    split at h
    · obtain ⟨h1, h2⟩ := potential_enter (hclosed b hb e (List.mem_of_getElem? hn)) hin' hd h
      refine ⟨?_, h2⟩
      split <;> omega
    · simp only [Except.ok.injEq] at h
      subst h
      refine ⟨?_, hin'⟩
      split <;> omega

/-- Steps bring the traversal closer to its end. -/
theorem potential_step {E : Loc → Prop} {started : List Loc} {nodes : List Nat} {s s' : State} (hd : c.dir = .successors)
    (hclosed : ∀ b ∈ nodes, ∀ t ∈ G.succ b, t ∈ nodes) (hgood : Good G c E started s) (hin : InNodes nodes s)
    (hne : ¬(s.stack = [] ∧ s.todo = [])) (h : step G c s = .ok s') :
    potential G c.dir nodes s' < potential G c.dir nodes s ∧ InNodes nodes s' := by
  unfold step at h
  cases hst : s.stack with
  | cons f rest =>
    rw [hst] at h
    simp only at h
    have hfb : f.block ∈ nodes := hin.stack f (by simp [hst])
    have hir : ∀ o, InNodes nodes { s with stack := rest, out := o } := fun o =>
      ⟨fun g hg => hin.stack g (by simp only at hg; simp [hst, hg]), hin.todo⟩
    have hfi : f.i ≤ (G.succ f.block).length := by
      obtain ⟨_, _, done, ⟨_, hi⟩ | ⟨b, lo, hi, rest', he, _⟩⟩ := hgood
      · exact (hi.frames f (by simp [hst])).2.2.1
      · rw [hst] at he
        obtain ⟨rfl, _⟩ := List.cons.inj he
        simp
    have hp : ∀ o, potential G c.dir nodes { s with stack := rest, out := o } + ((G.succ f.block).length + 1 - f.i) =
        potential G c.dir nodes s := by
      intro o
      simp only [potential, hd, Graph.essors, hst, List.map_cons, List.sum_cons]
      omega
    unfold advance at h
    by_cases h0 : f.i = 0
    · rw [if_pos h0] at h
      simp only at h
      split at h
      · simp only [Except.ok.injEq] at h
        subst h
        exact ⟨by have := hp (s.out ++ yielding (triage c f.block f.lo f.hi) f.block); omega, hir _⟩
      · obtain ⟨h1, h2⟩ := potential_expand hd hclosed hfb (hir _) h
        have := hp (s.out ++ yielding (triage c f.block f.lo f.hi) f.block)
        simp only [Nat.zero_le, if_true] at h1
        exact ⟨by omega, h2⟩
    · rw [if_neg h0] at h
      obtain ⟨h1, h2⟩ := potential_expand hd hclosed hfb (hir s.out) h
      have := hp s.out
      rw [if_pos hfi] at h1
      exact ⟨by omega, h2⟩
  | nil =>
    rw [hst] at h
    simp only at h
    cases htd : s.todo with
    | nil => exact absurd ⟨hst, htd⟩ hne
    | cons l todo =>
      rw [htd] at h
      simp only at h
      have hlb : l.1 ∈ nodes := hin.todo l (by simp [htd])
      have hit : ∀ l ∈ todo, l.1 ∈ nodes := fun l hl => hin.todo l (by simp [htd, hl])
      have hpush : ∀ lo hi lo' hi', weight (s.visited l.1) = 1 →
          potential G c.dir nodes ⟨todo, [⟨l.1, lo, hi, 0⟩], setVisited s.visited l.1 lo' hi', s.out⟩ <
            potential G c.dir nodes s ∧
          InNodes nodes ⟨todo, [⟨l.1, lo, hi, 0⟩], setVisited s.visited l.1 lo' hi', s.out⟩ := by
        intro lo hi lo' hi' hw
        refine ⟨?_, ⟨fun f hf => ?_, hit⟩⟩
        · simp only [potential, hst, htd, List.map_cons, List.sum_cons, List.map_nil, List.sum_nil]
          have := sum_le (l := nodes)
            (f := fun b => weight (setVisited s.visited l.1 lo' hi' b) * ((G.essors c.dir b).length + 2))
            (g := fun b => weight (s.visited b) * ((G.essors c.dir b).length + 2))
            (fun x _ => Nat.mul_le_mul_right _ (weight_set _ _ _ _ hw x))
          omega
        · simp only [List.mem_singleton] at hf
          subst hf
          exact hlb
      unfold begin at h
      simp only [hd] at h
      split at h
      · cases h
      · split at h
        · rename_i hv
          simp only [Except.ok.injEq] at h
          subst h
          exact hpush _ _ _ _ (by rw [hv]; rfl)
        · rename_i vfrom vto hv
          split at h
          · simp only [Except.ok.injEq] at h
            subst h
            refine ⟨?_, ⟨by simp, hit⟩⟩
            simp only [potential, hst, htd, List.map_cons, List.sum_cons, List.map_nil, List.sum_nil]
            omega
          · rename_i hnin
            split at h
            · rename_i hto
              simp only [Except.ok.injEq] at h
              subst h
              refine hpush _ _ _ _ ?_
              rw [hv]
              cases vfrom with
              | zero => exact absurd ⟨Nat.zero_le _, by omega⟩ hnin
              | succ n => rfl
            · cases h

theorem terminates {starts : List Loc} {nodes : List Nat} (hd : c.dir = .successors)
    (hclosed : ∀ b ∈ nodes, ∀ t ∈ G.succ b, t ∈ nodes) (hlocs : ∀ l ∈ starts, l.2 < G.len l.1) :
    ∀ (k : Nat) (s : State) (started : List Loc), starts = started ++ s.todo →
    Good G c (Entered G c starts) started s → InNodes nodes s → potential G c.dir nodes s ≤ k →
    ∃ n s', run G c n s = .ok s' ∧ s'.stack = [] ∧ s'.todo = []
  | k, s, started, hsub, hgood, hin, hk => by
    by_cases hend : s.stack = [] ∧ s.todo = []
    · exact ⟨0, s, rfl, hend.1, hend.2⟩
    · obtain ⟨s', started', h1, h2, h3⟩ := good_step hd hlocs hsub hgood
      obtain ⟨h4, h5⟩ := potential_step hd hclosed hgood hin hend h1
      match k with
      | 0 => omega
      | k + 1 =>
        obtain ⟨n, s'', h6, h7⟩ := terminates hd hclosed hlocs k s' started' h2 h3 h5 (by omega)
        exact ⟨n + 1, s'', by simp only [run, h1]; exact h6, h7⟩

end Verif.Traverse
