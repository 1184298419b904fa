import Verif.Model.TraverseFlow
import Verif.Props.Traverse
import Verif.Props.Flow

/-! Lemmas for C83: traversals and walks. -/

namespace Verif.Traverse

open Verif.Flow (Walk Sane Reach)

/-- The locations between two locations, along successors. -/
inductive Trail (G : Graph) : Loc → List Loc → Loc → Prop
  | one {x y} : Next G .successors x y → Trail G x [] y
  | cons {x z mid y} : Next G .successors x z → Trail G z mid y → Trail G x (z :: mid) y

theorem Trail.snoc {G : Graph} {x y z : Loc} {mid : List Loc} (h : Trail G x mid y) (h' : Next G .successors y z) :
    Trail G x (mid ++ [y]) z := by
  induction h with
  | one h => exact .cons h (.one h')
  | cons h _ ih => exact .cons h (ih h')

variable {g : Flow.Graph}

theorem mem_succs {b t : Nat} : t ∈ g.succs b ↔ (b, t) ∈ g.edges := by
  simp only [Flow.Graph.succs, List.mem_map, List.mem_filter, beq_iff_eq]
  constructor
  · rintro ⟨⟨s, t'⟩, ⟨h1, h2⟩, h3⟩
    cases h2; cases h3; exact h1
  · exact fun h => ⟨(b, t), ⟨h, rfl⟩, rfl⟩

theorem mem_pred {b t : Nat} : b ∈ (ofFlow g).pred t ↔ (b, t) ∈ g.edges := by
  simp only [ofFlow, List.mem_map, List.mem_filter, beq_iff_eq]
  constructor
  · rintro ⟨⟨s, t'⟩, ⟨h1, h2⟩, h3⟩
    cases h2; cases h3; exact h1
  · exact fun h => ⟨(b, t), ⟨h, rfl⟩, rfl⟩

theorem next_back {x y : Loc} : Next (ofFlow g) .successors x y ↔ Next (ofFlow g) .predecessors y x := by
  constructor
  · intro h
    cases h with
    | succ h => exact .pred h
    | succEdge h1 h2 h3 => exact .predEdge h3 (mem_pred.2 (mem_succs.1 h2)) h1
  · intro h
    cases h with
    | pred h => exact .succ h
    | predEdge h1 h2 h3 => exact .succEdge h3 (mem_succs.2 (mem_pred.1 h2)) h1

theorem Trail.entered {G : Graph} {c : Args} (hd : c.dir = .successors) {a b : Loc} {m starts : List Loc} (h : Trail G a m b) :
    Entered G c starts a → c.stop a = false → (∀ z ∈ m, c.stop z = false) → Entered G c starts b := by
  induction h with
  | one h => exact fun ha hs _ => .next ha hs (hd ▸ h)
  | cons h _ ih => exact fun ha hs hm => ih (.next ha hs (hd ▸ h)) (hm _ (by simp)) (fun z hz => hm z (by simp [hz]))

/-- What a traversal along successors gets to. -/
theorem entered_succ {G : Graph} {c : Args} (hd : c.dir = .successors) {x y : Loc} :
    Entered G c [x] y ↔ (c.includeStart = true ∧ y = x) ∨
      ((c.includeStart = true → c.stop x = false) ∧ ∃ mid, Trail G x mid y ∧ ∀ z ∈ mid, c.stop z = false) := by
  constructor
  · intro h
    induction h with
    | @first l z hl hf =>
      simp only [List.mem_singleton] at hl
      subst hl
      unfold First at hf
      split at hf
      · rename_i hi; exact .inl ⟨hi, hf⟩
      · rename_i hi; exact .inr ⟨fun h => absurd h hi, [], .one (hd ▸ hf), by simp⟩
    | @next y z _ hs hxy ih =>
      rw [hd] at hxy
      rcases ih with ⟨hi, rfl⟩ | ⟨hi, mid, h1, h2⟩
      · exact .inr ⟨fun _ => hs, [], .one hxy, by simp⟩
      · refine .inr ⟨hi, _, h1.snoc hxy, fun z hz => ?_⟩
        rcases List.mem_append.1 hz with hz | hz
        · exact h2 z hz
        · rw [List.mem_singleton.1 hz]; exact hs
  · rintro (⟨hi, rfl⟩ | ⟨hi, mid, h1, h2⟩)
    · exact .first (l := y) (by simp) (by unfold First; rw [if_pos hi])
    · by_cases hst : c.includeStart = true
      · exact h1.entered hd (.first (l := x) (by simp) (by unfold First; rw [if_pos hst])) (hi hst) h2
      · have hfirst : ∀ {z}, Next G .successors x z → Entered G c [x] z := fun h =>
          .first (l := x) (by simp) (by unfold First; rw [if_neg hst, hd]; exact h)
        cases h1 with
        | one h => exact hfirst h
        | cons h h' => exact h'.entered hd (hfirst h) (h2 _ (by simp)) (fun z hz => h2 z (by simp [hz]))

/-- What a traversal along predecessors gets to. -/
theorem entered_pred {c : Args} (hd : c.dir = .predecessors) {x y : Loc} :
    Entered (ofFlow g) c [y] x ↔ (c.includeStart = true ∧ x = y) ∨
      ((c.includeStart = true → c.stop y = false) ∧ ∃ mid, Trail (ofFlow g) x mid y ∧ ∀ z ∈ mid, c.stop z = false) := by
  constructor
  · intro h
    induction h with
    | @first l z hl hf =>
      simp only [List.mem_singleton] at hl
      subst hl
      unfold First at hf
      split at hf
      · rename_i hi; exact .inl ⟨hi, hf⟩
      · rename_i hi; exact .inr ⟨fun h => absurd h hi, [], .one (next_back.2 (hd ▸ hf)), by simp⟩
    | @next x z _ hs hxy ih =>
      rw [hd] at hxy
      rcases ih with ⟨hi, rfl⟩ | ⟨hi, mid, h1, h2⟩
      · exact .inr ⟨fun _ => hs, [], .one (next_back.2 hxy), by simp⟩
      · refine .inr ⟨hi, _, .cons (next_back.2 hxy) h1, fun z hz => ?_⟩
        rcases List.mem_cons.1 hz with hz | hz
        · rw [hz]; exact hs
        · exact h2 z hz
  · rintro (⟨hi, rfl⟩ | ⟨hi, mid, h1, h2⟩)
    · exact .first (l := x) (by simp) (by unfold First; rw [if_pos hi])
    · induction h1 with
      | @one x y h =>
        by_cases hst : c.includeStart = true
        · exact .next (.first (l := y) (by simp) (by unfold First; rw [if_pos hst])) (hi hst) (hd ▸ next_back.1 h)
        · exact .first (l := y) (by simp) (by unfold First; rw [if_neg hst, hd]; exact next_back.1 h)
      | cons h _ ih =>
        exact .next (ih hi fun z hz => h2 z (by simp [hz])) (h2 _ (by simp)) (hd ▸ next_back.1 h)

/-! ### Walks -/

/-- After the location, what is at the position may come next. -/
def Ready (g : Flow.Graph) (x : Loc) (b i : Nat) : Prop :=
  (∃ p, x = (b, p) ∧ i = p + 1 ∧ p < (g.locs b).length) ∨
  (i = 0 ∧ x.2 + 1 = (g.locs x.1).length ∧ (x.1, b) ∈ g.edges)

theorem Ready.next {x : Loc} {b i : Nat} (h : Ready g x b i) (hi : i < (g.locs b).length) :
    Next (ofFlow g) .successors x (b, i) := by
  rcases h with ⟨p, rfl, rfl, _⟩ | ⟨rfl, h1, h2⟩
  · exact .succ hi
  · exact .succEdge (b := x.1) (p := x.2) h1 (mem_succs.2 h2) hi

theorem lt_of_get {α : Type} {xs : List α} {i : Nat} {a : α} (h : xs[i]? = some a) : i < xs.length := by
  rw [List.getElem?_eq_some_iff] at h; exact h.1

/-- What a walk comes by after a location is on a trail from it. -/
theorem trail_of_walk (hg : Sane g) {n b i tr b' i'} (h : Walk g n b i tr b' i') : ∀ {x : Loc}, Ready g x b i →
    ∀ {t y t'}, tr = t ++ y :: t' →
      ∃ mid z, Trail (ofFlow g) x mid z ∧ mid.map (locAt g) = t.map some ∧ locAt g z = some y := by
  induction h with
  | nil => intro x _ t y t' h; simp at h
  | @emit n b i l tr b' i' h1 _ ih =>
    intro x hx t y t' he
    have hnext := hx.next (lt_of_get h1)
    cases t with
    | nil =>
      simp only [List.nil_append, List.cons.injEq] at he
      exact ⟨[], (b, i), .one hnext, rfl, by rw [← he.1]; exact h1⟩
    | cons a t =>
      simp only [List.cons_append, List.cons.injEq] at he
      obtain ⟨mid, z, h2, h3, h4⟩ := ih (x := (b, i)) (.inl ⟨i, rfl, rfl, lt_of_get h1⟩) he.2
      refine ⟨(b, i) :: mid, z, .cons hnext h2, ?_, h4⟩
      rw [List.map_cons, List.map_cons, h3, ← he.1]
      congr 1
  | @edge n b i u tr b' i' h1 h2 _ ih =>
    intro x hx t y t' he
    refine ih (x := x) ?_ he
    rcases hx with ⟨p, rfl, rfl, _⟩ | ⟨rfl, _, _⟩
    · exact .inr ⟨rfl, h1, h2⟩
    · exact absurd (List.length_eq_zero_iff.1 h1.symm) (hg.src _ _ h2)

/-- A trail is a walk. -/
theorem walk_of_trail {x y : Loc} {mid : List Loc} (h : Trail (ofFlow g) x mid y) :
    ∃ t v, mid.map (locAt g) = t.map some ∧ locAt g y = some v ∧ Reach g x.1 (x.2 + 1) (t ++ [v]) y.1 (y.2 + 1) := by
  have one : ∀ {x y}, Next (ofFlow g) .successors x y → ∃ v, locAt g y = some v ∧ Reach g x.1 (x.2 + 1) [v] y.1 (y.2 + 1) := by
    intro x y h
    cases h with
    | @succ b p h =>
      have h' : p + 1 < (g.locs b).length := h
      have e : (g.locs b)[p + 1]? = some (g.locs b)[p + 1] := List.getElem?_eq_getElem h'
      exact ⟨_, e, _, .emit e .nil⟩
    | @succEdge b p t h1 h2 h3 =>
      have h' : 0 < (g.locs t).length := h3
      have e : (g.locs t)[0]? = some (g.locs t)[0] := List.getElem?_eq_getElem h'
      exact ⟨_, e, _, .edge h1 (mem_succs.1 h2) (.emit e .nil)⟩
  induction h with
  | one h =>
    obtain ⟨v, h1, h2⟩ := one h
    exact ⟨[], v, rfl, h1, h2⟩
  | cons h _ ih =>
    obtain ⟨a, h1, h2⟩ := one h
    obtain ⟨t, v, h3, h4, h5⟩ := ih
    refine ⟨a :: t, v, by simp [h1, h3], h4, ?_⟩
    have := Reach.trans h2 h5
    simpa using this

/-- Where a walk comes by a location. -/
theorem walk_split {n b i tr b' i'} (h : Walk g n b i tr b' i') : ∀ {t x t'}, tr = t ++ x :: t' →
    ∃ b1 i1 m, locAt g (b1, i1) = some x ∧ Reach g b i t b1 i1 ∧ Walk g m b1 (i1 + 1) t' b' i' := by
  induction h with
  | nil => intro t x t' h; simp at h
  | @emit n b i l tr b' i' h1 hw ih =>
    intro t x t' he
    cases t with
    | nil =>
      simp only [List.nil_append, List.cons.injEq] at he
      obtain ⟨rfl, rfl⟩ := he
      exact ⟨b, i, n, h1, ⟨0, .nil⟩, hw⟩
    | cons a t =>
      simp only [List.cons_append, List.cons.injEq] at he
      obtain ⟨rfl, he⟩ := he
      obtain ⟨b1, i1, m, h2, ⟨k, h3⟩, h4⟩ := ih he
      exact ⟨b1, i1, m, h2, ⟨k + 1, .emit h1 h3⟩, h4⟩
  | edge h1 h2 _ ih =>
    intro t x t' he
    obtain ⟨b1, i1, m, h3, ⟨k, h4⟩, h5⟩ := ih he
    exact ⟨b1, i1, m, h3, ⟨k + 1, .edge h1 h2 h4⟩, h5⟩

/-- Each location is at one position. -/
theorem locAt_unique (hg : Sane g) (hd : g.all.Nodup) {x y : Loc} {l : Nat} (hx : locAt g x = some l) (hy : locAt g y = some l) :
    x = y := by
  have e : x.1 = y.1 := Flow.all_unique hd hg (List.mem_of_getElem? hx) (List.mem_of_getElem? hy)
  have hn := Flow.locs_nodup hd hg x.1
  unfold locAt at hx hy
  rw [← e] at hy
  have : x.2 = y.2 := (List.getElem?_inj (lt_of_get hx) hn).1 (by rw [hx, hy])
  exact Prod.ext e this

/-- On a path, what comes after a location is on a trail from it. -/
theorem trail_of_path (hg : Sane g) (hd : g.all.Nodup) {path : List Nat} (hp : g.IsPath path) {t1 t2 t3 : List Nat} {x y : Nat}
    (htr : t1 ++ x :: (t2 ++ y :: t3) <+: g.along path) {lx : Loc} (hx : locAt g lx = some x) :
    ∃ mid ly, Trail (ofFlow g) lx mid ly ∧ mid.map (locAt g) = t2.map some ∧ locAt g ly = some y := by
  obtain ⟨h1, h2⟩ := hp
  cases path with
  | nil => cases h1
  | cons b path =>
    obtain ⟨b', -, n, hw⟩ := Flow.path_walk path b h2
    obtain ⟨t4, ht4⟩ := htr
    rw [← ht4] at hw
    obtain ⟨b1, i1, m, h3, h4, h5⟩ := walk_split hw (t := t1) (x := x) (t' := t2 ++ y :: (t3 ++ t4)) (by simp)
    have := locAt_unique hg hd hx h3
    subst this
    exact trail_of_walk hg h5 (.inl ⟨i1, rfl, rfl, lt_of_get h3⟩) rfl

/-- A trail from a location on a path is on a path. -/
theorem path_of_trail (hg : Sane g) (hd : g.all.Nodup) {path : List Nat} (hp : g.IsPath path) {x : Nat} (hmem : x ∈ g.along path)
    {lx ly : Loc} {mid : List Loc} (hx : locAt g lx = some x) (h : Trail (ofFlow g) lx mid ly) :
    ∃ t1 t2 y t3 path', g.IsPath path' ∧ g.along path' = t1 ++ x :: (t2 ++ y :: t3) ∧ mid.map (locAt g) = t2.map some ∧
      locAt g ly = some y := by
  obtain ⟨h1, h2⟩ := hp
  cases path with
  | nil => cases h1
  | cons b path =>
    obtain ⟨b', -, n, hw⟩ := Flow.path_walk path b h2
    obtain ⟨t, t', ht⟩ := List.append_of_mem hmem
    obtain ⟨b1, i1, m, h3, h4, -⟩ := walk_split hw ht
    have := locAt_unique hg hd hx h3
    subst this
    obtain ⟨t2, y, h5, h6, k, h7⟩ := walk_of_trail h
    have hreach := Reach.trans h4 ⟨k + 1, Walk.emit h3 h7⟩
    obtain ⟨k', hw'⟩ := hreach
    obtain ⟨pre, g1, g2, g3⟩ := Flow.walk_path hw'
    simp only [List.take_zero, List.nil_append] at g3
    refine ⟨t, t2, y, (g.locs ly.1).drop (ly.2 + 1), pre ++ [ly.1], ⟨?_, g1⟩, ?_, h5, h6⟩
    · rw [g2]; exact h1
    · have e : g.along (pre ++ [ly.1]) = g.along pre ++ g.locs ly.1 := by simp [Flow.Graph.along]
      rw [e]
      conv_lhs => rw [← List.take_append_drop (ly.2 + 1) (g.locs ly.1), ← List.append_assoc, ← g3]
      simp

/-! ### What traversals yield -/

theorem onLoc_eq {stop : Nat → Bool} {x : Loc} {l : Nat} (h : locAt g x = some l) : onLoc g stop x = stop l := by
  unfold onLoc; rw [h]

theorem onLoc_map {stop : Nat → Bool} : ∀ {mid : List Loc} {t : List Nat}, mid.map (locAt g) = t.map some →
    ((∀ z ∈ mid, onLoc g stop z = false) ↔ ∀ z ∈ t, stop z = false)
  | [], [], _ => by simp
  | [], _ :: _, h => by simp at h
  | _ :: _, [], h => by simp at h
  | x :: mid, l :: t, h => by
    simp only [List.map_cons, List.cons.injEq] at h
    simp only [List.mem_cons, forall_eq_or_imp, onLoc_eq h.1, onLoc_map h.2]

/-- What comes after a location on a path is yielded. -/
theorem after_yielded (hg : Sane g) (hd : g.all.Nodup) {path : List Nat} (hp : g.IsPath path) {stop : Nat → Bool}
    {incS incE : Bool} {t1 t2 t3 : List Nat} {x y : Nat} (htr : t1 ++ x :: (t2 ++ y :: t3) <+: g.along path)
    (hx : incS = true → stop x = false) (ht : ∀ z ∈ t2, stop z = false) (hy : incE = true ∨ stop y = false) {lx : Loc}
    (hlx : locAt g lx = some x) {locs : List Loc} (h : Locs (ofFlow g) ⟨.successors, onLoc g stop, incS, incE⟩ [lx] locs) :
    ∃ ly ∈ locs, locAt g ly = some y := by
  obtain ⟨mid, ly, h1, h2, h3⟩ := trail_of_path hg hd hp htr hlx
  refine ⟨ly, ((C82_partial [lx] (fun l hl => ?_) (.inl ⟨lx, rfl⟩) locs h).2 ly).2 ⟨?_, ?_⟩, h3⟩
  · rw [List.mem_singleton.1 hl]; exact lt_of_get hlx
  · exact (entered_succ rfl).2 (.inr ⟨fun hi => (onLoc_eq hlx).trans (hx hi), mid, h1, (onLoc_map h2).2 ht⟩)
  · exact hy.imp id fun hy => (onLoc_eq h3).trans hy

/-- What comes before a location on a path is yielded. -/
theorem before_yielded (hg : Sane g) (hd : g.all.Nodup) {path : List Nat} (hp : g.IsPath path) {stop : Nat → Bool}
    {incS incE : Bool} {t1 t2 t3 : List Nat} {x y : Nat} (htr : t1 ++ x :: (t2 ++ y :: t3) <+: g.along path)
    (hy : incS = true → stop y = false) (ht : ∀ z ∈ t2, stop z = false) (hx : incE = true ∨ stop x = false) {lx ly : Loc}
    (hlx : locAt g lx = some x) (hly : locAt g ly = some y) {locs : List Loc}
    (h : Locs (ofFlow g) ⟨.predecessors, onLoc g stop, incS, incE⟩ [ly] locs) : lx ∈ locs := by
  obtain ⟨mid, ly', h1, h2, h3⟩ := trail_of_path hg hd hp htr hlx
  cases locAt_unique hg hd hly h3
  refine ((C82_partial [ly] (fun l hl => ?_) (.inl ⟨ly, rfl⟩) locs h).2 lx).2 ⟨?_, ?_⟩
  · rw [List.mem_singleton.1 hl]; exact lt_of_get hly
  · exact (entered_pred rfl).2 (.inr ⟨fun hi => (onLoc_eq hly).trans (hy hi), mid, h1, (onLoc_map h2).2 ht⟩)
  · exact hx.imp id fun hx => (onLoc_eq hlx).trans hx

/-- What is yielded comes after the location on a path. -/
theorem yielded_after (hg : Sane g) (hd : g.all.Nodup) {path : List Nat} (hp : g.IsPath path) {stop : Nat → Bool}
    {incS incE : Bool} {x : Nat} (hmem : x ∈ g.along path) {lx ly : Loc} (hlx : locAt g lx = some x) {locs : List Loc}
    (h : Locs (ofFlow g) ⟨.successors, onLoc g stop, incS, incE⟩ [lx] locs) (hly : ly ∈ locs) (hne : incS = false ∨ ly ≠ lx) :
    ∃ y t1 t2 t3 path', locAt g ly = some y ∧ g.IsPath path' ∧ g.along path' = t1 ++ x :: (t2 ++ y :: t3) ∧
      (∀ z ∈ t2, stop z = false) ∧ (incS = true → stop x = false) ∧ (incE = true ∨ stop y = false) := by
  obtain ⟨h1, h2⟩ := ((C82_partial [lx] (fun l hl => by rw [List.mem_singleton.1 hl]; exact lt_of_get hlx) (.inl ⟨lx, rfl⟩)
    locs h).2 ly).1 hly
  rcases (entered_succ rfl).1 h1 with ⟨hi, rfl⟩ | ⟨hi, mid, h3, h4⟩
  · rcases hne with hne | hne
    · simp only [hne] at hi; cases hi
    · exact absurd rfl hne
  · obtain ⟨t1, t2, y, t3, path', g1, g2, g3, g4⟩ := path_of_trail hg hd hp hmem hlx h3
    exact ⟨y, t1, t2, t3, path', g4, g1, g2, (onLoc_map g3).1 h4, fun hs => by rw [← hi hs]; exact (onLoc_eq hlx).symm,
      h2.imp id fun h => by rw [← h]; exact (onLoc_eq g4).symm⟩

/-- What is yielded comes before the location on a path. -/
theorem yielded_before (hg : Sane g) (hd : g.all.Nodup) {path : List Nat} (hp : g.IsPath path) {stop : Nat → Bool}
    {incS incE : Bool} {x y : Nat} (hmem : x ∈ g.along path) {lx ly : Loc} (hlx : locAt g lx = some x)
    (hly : locAt g ly = some y) {locs : List Loc}
    (h : Locs (ofFlow g) ⟨.predecessors, onLoc g stop, incS, incE⟩ [ly] locs) (hm : lx ∈ locs) (hne : incS = false ∨ lx ≠ ly) :
    ∃ t1 t2 t3 path', g.IsPath path' ∧ g.along path' = t1 ++ x :: (t2 ++ y :: t3) ∧
      (∀ z ∈ t2, stop z = false) ∧ (incS = true → stop y = false) ∧ (incE = true ∨ stop x = false) := by
  obtain ⟨h1, h2⟩ := ((C82_partial [ly] (fun l hl => by rw [List.mem_singleton.1 hl]; exact lt_of_get hly) (.inl ⟨ly, rfl⟩)
    locs h).2 lx).1 hm
  rcases (entered_pred rfl).1 h1 with ⟨hi, rfl⟩ | ⟨hi, mid, h3, h4⟩
  · rcases hne with hne | hne
    · simp only [hne] at hi; cases hi
    · exact absurd rfl hne
  · obtain ⟨t1, t2, y', t3, path', g1, g2, g3, g4⟩ := path_of_trail hg hd hp hmem hlx h3
    rw [hly] at g4
    cases g4
    exact ⟨t1, t2, t3, path', g1, g2, (onLoc_map g3).1 h4, fun hs => by rw [← hi hs]; exact (onLoc_eq hly).symm,
      h2.imp id fun h => by rw [← h]; exact (onLoc_eq hlx).symm⟩

end Verif.Traverse
