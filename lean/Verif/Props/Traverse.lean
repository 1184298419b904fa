import Verif.Lemmas.TraverseMirror

/-!
**C82**: traversals from locations.

Full statement: the locations yielded are, each once, exactly those that the traversal gets to (`Entered`), except that those
at which it stops are left out if `include_end` is false. It is false if there are several starts: see the counterexample.
-/

namespace Verif.Traverse

variable {G : Graph} {c : Args}

/-- The invariant at the end of the traversal, along successors. -/
theorem blocks_inv (hd : c.dir = .successors) {starts : List Loc} (hlocs : ∀ l ∈ starts, l.2 < G.len l.1)
    {out : List Piece} (h : Blocks G c starts out) :
    ∃ done visited, Inv G c (Entered G c starts) starts done [] [] visited out := by
  obtain ⟨n, s, hrun, hstack, htodo, rfl⟩ := h
  obtain ⟨s', started, h1, h2, h3⟩ := good_run hd hlocs n (init starts) [] rfl (good_init starts)
  rw [hrun, Except.ok.injEq] at h1
  subst h1
  rw [htodo, List.append_nil] at h2
  subst h2
  obtain ⟨_, _, done, ⟨_, hi⟩ | ⟨b, lo, hi, rest, he, _⟩⟩ := h3
  · rw [hstack] at hi
    exact ⟨done, s.visited, hi⟩
  · rw [hstack] at he; cases he

theorem init_flip {starts : List Loc} (hlocs : ∀ l ∈ starts, l.2 < G.len l.1) :
    init starts = flipState G (init (starts.map (flip G))) := by
  simp only [init, flipState, List.map_map, List.map_nil, State.mk.injEq, and_true, true_and]
  refine ⟨?_, rfl⟩
  conv_lhs => rw [← List.map_id starts]
  exact List.map_congr_left fun l hl => (flip_flip (hlocs l hl)).symm

/-- The traversal along predecessors, mirrored. -/
theorem blocks_flip (hd : c.dir = .predecessors) {starts : List Loc} (hlocs : ∀ l ∈ starts, l.2 < G.len l.1)
    {out : List Piece} (h : Blocks G c starts out) :
    ∃ out', Blocks G.mirror (c.mirror G) (starts.map (flip G)) out' ∧ out = out'.map (flipPiece G) := by
  obtain ⟨n, s, hrun, hstack, htodo, rfl⟩ := h
  have hlocs' : ∀ l ∈ starts.map (flip G), l.2 < G.len l.1 := by
    intro l hl
    obtain ⟨l', hl', rfl⟩ := List.mem_map.1 hl
    exact flip_lt (hlocs l' hl')
  obtain ⟨s', started, h1, h2, h3⟩ := good_run (G := G.mirror) (c := c.mirror G) rfl hlocs' n
    (init (starts.map (flip G))) [] rfl (good_init _)
  rw [init_flip hlocs, run_flip hd hlocs' n _ [] rfl (good_init _), h1] at hrun
  simp only [Except.map, Except.ok.injEq] at hrun
  subst hrun
  refine ⟨s'.out, ⟨n, s', h1, ?_, ?_, rfl⟩, rfl⟩
  · simpa [flipState] using hstack
  · simpa [flipState] using htodo

theorem triage_bound (hd : c.dir = .successors) {b lo hi : Nat} (hlo : lo ≤ hi) : (triage c b lo hi).2.2 ≤ hi := by
  unfold triage
  cases hf : (positions c.dir lo hi).find? fun i => c.stop (b, i) with
  | none => exact Nat.le_refl _
  | some i =>
    rw [hd] at hf
    obtain ⟨h5, h6, _⟩ := find?_range' hf
    simp only [hd]
    cases he : c.includeEnd with
    | true => simp only [cut]; omega
    | false => simp only [cut]; omega

theorem out_bound {E : Loc → Prop} {started : List Loc} {done : List Piece} {visited : Nat → Option (Nat × Nat)}
    {out : List Piece} (hd : c.dir = .successors) (h : Inv G c E started done [] [] visited out) :
    ∀ t ∈ out, t.2.2 ≤ G.len t.1 := by
  intro t ht
  rw [h.out] at ht
  obtain ⟨p, hp, ht⟩ := List.mem_flatMap.1 ht
  obtain ⟨_, _, _, h3, h4⟩ := h.bound p (by simp only [List.append_nil]; exact hp)
  unfold yielding at ht
  split at ht
  · simp only [List.mem_singleton] at ht
    subst ht
    exact Nat.le_trans (triage_bound hd h3) h4
  · cases ht

/-- **C82**: only what the traversal gets to is yielded, and nothing twice. -/
theorem C82_sound (starts : List Loc) (hlocs : ∀ l ∈ starts, l.2 < G.len l.1) (locs : List Loc) (h : Locs G c starts locs) :
    locs.Nodup ∧ ∀ x ∈ locs, Entered G c starts x ∧ (c.includeEnd = true ∨ c.stop x = false) := by
  obtain ⟨out, hb, rfl⟩ := h
  cases hd : c.dir with
  | successors =>
    obtain ⟨done, visited, hi⟩ := blocks_inv hd hlocs hb
    refine ⟨hd ▸ nodup_out hd hi, fun x hx => ?_⟩
    obtain ⟨h1, h2⟩ := (mem_out hd hi x).1 (hd ▸ hx)
    exact ⟨scanned_entered (fun x y hx hs hxy => .next hx hs (hd ▸ hxy)) hi h1, h2⟩
  | predecessors =>
    obtain ⟨out', hb', rfl⟩ := blocks_flip hd hlocs hb
    have hlocs' : ∀ l ∈ starts.map (flip G), l.2 < G.mirror.len l.1 := by
      intro l hl
      obtain ⟨l', hl', rfl⟩ := List.mem_map.1 hl
      exact flip_lt (hlocs l' hl')
    obtain ⟨done, visited, hi⟩ := blocks_inv (G := G.mirror) (c := c.mirror G) rfl hlocs' hb'
    rw [locsOf_flip (G := G) (out_bound (G := G.mirror) rfl hi)]
    have hnd := nodup_out (G := G.mirror) (c := c.mirror G) rfl hi
    have hmem := mem_out (G := G.mirror) (c := c.mirror G) rfl hi
    have hent : ∀ x ∈ locsOf .successors out', Entered G.mirror (c.mirror G) (starts.map (flip G)) x :=
      fun x hx => scanned_entered (fun x y hx hs hxy => .next hx hs hxy) hi ((hmem x).1 hx).1
    have hval : ∀ x ∈ locsOf .successors out', x.2 < G.len x.1 := fun x hx => entered_valid (G := G.mirror) hlocs' (hent x hx)
    constructor
    · refine List.pairwise_map.2 (hnd.imp_of_mem fun {a b} ha hb hab h => hab ?_)
      rw [← flip_flip (hval a ha), ← flip_flip (hval b hb), h]
    · intro x hx
      obtain ⟨y, hy, rfl⟩ := List.mem_map.1 hx
      refine ⟨entered_unflip hd hlocs (hent y hy), ?_⟩
      exact ((hmem y).1 hy).2

/-- All that the traversal gets to is yielded, along successors. -/
theorem complete_succ (hd : c.dir = .successors) {starts : List Loc} (hlocs : ∀ l ∈ starts, l.2 < G.len l.1)
    (hone : (∃ l, starts = [l]) ∨ ∀ x, c.stop x = false) {out : List Piece} (h : Blocks G c starts out) {x : Loc}
    (hx : Entered G c starts x) (hs : c.includeEnd = true ∨ c.stop x = false) : x ∈ locsOf c.dir out := by
  obtain ⟨done, visited, hi⟩ := blocks_inv hd hlocs h
  refine (mem_out hd hi x).2 ⟨?_, hs⟩
  clear hs
  induction hx with
  | @first l x hl hx =>
    refine scanned_first hd hi (hlocs l hl) ?_ hx
    rcases hone with ⟨l', rfl⟩ | hno
    · simp only [List.mem_singleton] at hl
      subst hl
      left
      simpa using hi.head l rfl
    · exact .inr ⟨hno, by simpa using hi.started l hl⟩
  | next _ hs hxy ih => exact scanned_next hi ih hs (hd ▸ hxy)

/-- **C82**, for one start or if the traversal never stops: exactly what the traversal gets to is yielded. -/
theorem C82_partial (starts : List Loc) (hlocs : ∀ l ∈ starts, l.2 < G.len l.1)
    (hone : (∃ l, starts = [l]) ∨ ∀ x, c.stop x = false) (locs : List Loc) (h : Locs G c starts locs) :
    locs.Nodup ∧ ∀ x, x ∈ locs ↔ Entered G c starts x ∧ (c.includeEnd = true ∨ c.stop x = false) := by
  obtain ⟨hnd, hsound⟩ := C82_sound starts hlocs locs h
  refine ⟨hnd, fun x => ⟨hsound x, fun ⟨hx, hs⟩ => ?_⟩⟩
  obtain ⟨out, hb, rfl⟩ := h
  cases hd : c.dir with
  | successors => exact hd ▸ complete_succ hd hlocs hone hb hx hs
  | predecessors =>
    obtain ⟨out', hb', rfl⟩ := blocks_flip hd hlocs hb
    have hlocs' : ∀ l ∈ starts.map (flip G), l.2 < G.mirror.len l.1 := by
      intro l hl
      obtain ⟨l', hl', rfl⟩ := List.mem_map.1 hl
      exact flip_lt (hlocs l' hl')
    obtain ⟨done, visited, hi⟩ := blocks_inv (G := G.mirror) (c := c.mirror G) rfl hlocs' hb'
    rw [locsOf_flip (G := G) (out_bound (G := G.mirror) rfl hi)]
    have hval := entered_valid hlocs hx
    refine List.mem_map.2 ⟨flip G x, ?_, flip_flip hval⟩
    refine complete_succ (G := G.mirror) (c := c.mirror G) rfl hlocs' ?_ hb' (entered_flip hd hx) ?_
    · rcases hone with ⟨l, rfl⟩ | hno
      · exact .inl ⟨flip G l, rfl⟩
      · exact .inr fun x => hno _
    · simpa only [Args.mirror, flip_flip hval] using hs

/-- **C82**: the traversal ends, and raises no exception. -/
theorem C82_terminates (starts : List Loc) (hlocs : ∀ l ∈ starts, l.2 < G.len l.1) (nodes : List Nat)
    (hclosed : ∀ b ∈ nodes, ∀ t ∈ G.essors c.dir b, t ∈ nodes) (hstarts : ∀ l ∈ starts, l.1 ∈ nodes) :
    ∃ locs, Locs G c starts locs := by
  cases hd : c.dir with
  | successors =>
    obtain ⟨n, s, h1, h2, h3⟩ := terminates (G := G) (c := c) (starts := starts) (nodes := nodes) hd
      (by simpa [hd, Graph.essors] using hclosed) hlocs _ (init starts) [] rfl (good_init starts) ⟨by simp [init], hstarts⟩
      (Nat.le_refl _)
    exact ⟨_, s.out, ⟨n, s, h1, h2, h3, rfl⟩, rfl⟩
  | predecessors =>
    have hlocs' : ∀ l ∈ starts.map (flip G), l.2 < G.mirror.len l.1 := by
      intro l hl
      obtain ⟨l', hl', rfl⟩ := List.mem_map.1 hl
      exact flip_lt (hlocs l' hl')
    obtain ⟨n, s, h1, h2, h3⟩ := terminates (G := G.mirror) (c := c.mirror G) (starts := starts.map (flip G))
      (nodes := nodes) rfl (by simpa [hd, Graph.essors, Graph.mirror] using hclosed) hlocs' _ (init _) [] rfl
      (good_init _) ⟨by simp [init], fun l hl => by
        obtain ⟨l', hl', rfl⟩ := List.mem_map.1 hl
        exact hstarts l' hl'⟩ (Nat.le_refl _)
    have hrun := run_flip (G := G) hd hlocs' n (init (starts.map (flip G))) [] rfl (good_init _)
    rw [h1, ← init_flip hlocs] at hrun
    exact ⟨_, _, ⟨n, flipState G s, hrun, by simp [flipState, h2], by simp [flipState, h3], rfl⟩, rfl⟩

/-- **C82**: no exception is raised at any time. -/
theorem C82_no_exception (starts : List Loc) (hlocs : ∀ l ∈ starts, l.2 < G.len l.1) (n : Nat) :
    ∃ s, run G c n (init starts) = .ok s := by
  cases hd : c.dir with
  | successors =>
    obtain ⟨s, _, h, _⟩ := good_run hd hlocs n (init starts) [] rfl (good_init starts)
    exact ⟨s, h⟩
  | predecessors =>
    have hlocs' : ∀ l ∈ starts.map (flip G), l.2 < G.mirror.len l.1 := by
      intro l hl
      obtain ⟨l', hl', rfl⟩ := List.mem_map.1 hl
      exact flip_lt (hlocs l' hl')
    obtain ⟨s, _, h, _⟩ := good_run (G := G.mirror) (c := c.mirror G) rfl hlocs' n (init _) [] rfl (good_init _)
    have hrun := run_flip (G := G) hd hlocs' n (init (starts.map (flip G))) [] rfl (good_init _)
    rw [h, ← init_flip hlocs] at hrun
    exact ⟨_, hrun⟩

/-! ### With functions and classes -/

/-- What the traversal gets to and yields, in the functions that are defined there, too. -/
inductive Explored (G : Graph) (c : Args) (inner : Loc → List Loc) (starts : List Loc) : Loc → Prop
  | here {x} : Entered G c starts x → c.includeEnd = true ∨ c.stop x = false → Explored G c inner starts x
  | inner {x f y} : Explored G c inner starts x → f ∈ inner x → Entered G c [f] y →
      c.includeEnd = true ∨ c.stop y = false → Explored G c inner starts y

theorem Explored.trans {inner : Loc → List Loc} {starts : List Loc} {x f y : Loc} (hx : Explored G c inner starts x)
    (hf : f ∈ inner x) (hy : Explored G c inner [f] y) : Explored G c inner starts y := by
  induction hy with
  | here h1 h2 => exact .inner hx hf h1 h2
  | inner _ h2 h3 h4 ih => exact .inner ih h2 h3 h4

theorem Explored.cases_start {inner : Loc → List Loc} {starts : List Loc} {y : Loc} (hy : Explored G c inner starts y) :
    (Entered G c starts y ∧ (c.includeEnd = true ∨ c.stop y = false)) ∨
    ∃ x f, Entered G c starts x ∧ (c.includeEnd = true ∨ c.stop x = false) ∧ f ∈ inner x ∧ Explored G c inner [f] y := by
  induction hy with
  | here h1 h2 => exact .inl ⟨h1, h2⟩
  | @inner x f y _ h2 h3 h4 ih =>
    rcases ih with ⟨h5, h6⟩ | ⟨x', f', h5, h6, h7, h8⟩
    · exact .inr ⟨x, f, h5, h6, h2, .here h3 h4⟩
    · exact .inr ⟨x', f', h5, h6, h7, .inner h8 h2 h3 h4⟩

mutual
theorem explores_mem {inner : Loc → List Loc} (hinner : ∀ x, ∀ f ∈ inner x, f.2 < G.len f.1) {starts out : List Loc}
    (hlocs : ∀ l ∈ starts, l.2 < G.len l.1) (hone : (∃ l, starts = [l]) ∨ ∀ x, c.stop x = false)
    (h : Explores G c inner starts out) (y : Loc) : y ∈ out ↔ Explored G c inner starts y := by
  match h with
  | @Explores.mk _ _ _ _ locs _ h1 h2 =>
    have hmem := (C82_partial starts hlocs hone locs h1).2
    rw [explores_each hinner h2 y]
    constructor
    · rintro (hy | ⟨x, hx, f, hf, hy⟩)
      · obtain ⟨h3, h4⟩ := (hmem y).1 hy
        exact .here h3 h4
      · obtain ⟨h3, h4⟩ := (hmem x).1 hx
        exact (Explored.here h3 h4).trans hf hy
    · intro hy
      rcases hy.cases_start with hy | ⟨x, f, h3, h4, h5, h6⟩
      · exact .inl ((hmem y).2 hy)
      · exact .inr ⟨x, (hmem x).2 ⟨h3, h4⟩, f, h5, h6⟩

theorem explores_each {inner : Loc → List Loc} (hinner : ∀ x, ∀ f ∈ inner x, f.2 < G.len f.1) {locs out : List Loc}
    (h : ExploresEach G c inner locs out) (y : Loc) :
    y ∈ out ↔ y ∈ locs ∨ ∃ x ∈ locs, ∃ f ∈ inner x, Explored G c inner [f] y := by
  match h with
  | .nil => simp
  | @ExploresEach.cons _ _ _ l ls sub out' h1 h2 =>
    simp only [List.mem_cons, List.mem_append]
    rw [explores_inner hinner (hinner l) h1 y, explores_each hinner h2 y]
    constructor
    · rintro (rfl | ⟨f, hf, h⟩ | h | ⟨x, hx, h⟩)
      · exact .inl (.inl rfl)
      · exact .inr ⟨l, .inl rfl, f, hf, h⟩
      · exact .inl (.inr h)
      · exact .inr ⟨x, .inr hx, h⟩
    · rintro ((rfl | h) | ⟨x, rfl | hx, f, hf, h⟩)
      · exact .inl rfl
      · exact .inr (.inr (.inl h))
      · exact .inr (.inl ⟨f, hf, h⟩)
      · exact .inr (.inr (.inr ⟨x, hx, f, hf, h⟩))

theorem explores_inner {inner : Loc → List Loc} (hinner : ∀ x, ∀ f ∈ inner x, f.2 < G.len f.1) {fs out : List Loc}
    (hfs : ∀ f ∈ fs, f.2 < G.len f.1) (h : ExploresInner G c inner fs out) (y : Loc) :
    y ∈ out ↔ ∃ f ∈ fs, Explored G c inner [f] y := by
  match h with
  | .nil => simp
  | @ExploresInner.cons _ _ _ f fs' sub out' h1 h2 =>
    simp only [List.mem_append, List.mem_cons]
    rw [explores_mem hinner (fun l hl => by simp only [List.mem_singleton] at hl; subst hl; exact hfs _ (by simp))
      (.inl ⟨f, rfl⟩) h1 y, explores_inner hinner (fun g hg => hfs g (by simp [hg])) h2 y]
    constructor
    · rintro (h | ⟨g, hg, h⟩)
      · exact ⟨f, .inl rfl, h⟩
      · exact ⟨g, .inr hg, h⟩
    · rintro ⟨g, rfl | hg, h⟩
      · exact .inl h
      · exact .inr ⟨g, hg, h⟩
end

/-- **C82**, with `explore_functions` and `explore_classes`: what is yielded is what the traversal gets to, and what the
traversals of functions get to that are defined where it gets to. -/
theorem C82_functions_partial (inner : Loc → List Loc) (hinner : ∀ x, ∀ f ∈ inner x, f.2 < G.len f.1) (starts : List Loc)
    (hlocs : ∀ l ∈ starts, l.2 < G.len l.1) (hone : (∃ l, starts = [l]) ∨ ∀ x, c.stop x = false) (out : List Loc)
    (h : Explores G c inner starts out) (y : Loc) : y ∈ out ↔ Explored G c inner starts y :=
  explores_mem hinner hlocs hone h y

/-! A loop: block 0 with 2 locations, the header 1 with 1 location, the body 2 with 3, and 3 after the loop; 4 is empty. -/

def loop : Graph where
  succ := fun | 0 => [1] | 1 => [2, 3] | 2 => [1] | 3 => [4] | _ => []
  pred := fun | 1 => [0, 2] | 2 => [1] | 3 => [1] | 4 => [3] | _ => []
  len := fun | 0 => 2 | 1 => 1 | 2 => 3 | 3 => 2 | _ => 0

/-- From the second location of the body, without it, until the second location after the loop, and without that one. -/
def inBody : Args := ⟨.successors, fun x => x == (3, 1), false, false⟩

example : Locs loop inBody [(2, 1)] [(2, 2), (1, 0), (2, 0), (2, 1), (3, 0)] :=
  ⟨_, ⟨20, _, rfl, rfl, rfl, rfl⟩, rfl⟩

example (x : Loc) : x ∈ [(2, 2), (1, 0), (2, 0), (2, 1), (3, 0)] ↔
    Entered loop inBody [(2, 1)] x ∧ (inBody.includeEnd = true ∨ inBody.stop x = false) :=
  (C82_partial (G := loop) (c := inBody) [(2, 1)] (by simp [loop]) (.inl ⟨_, rfl⟩)
    [(2, 2), (1, 0), (2, 0), (2, 1), (3, 0)] ⟨_, ⟨20, _, rfl, rfl, rfl, rfl⟩, rfl⟩).2 x

/-- Backwards from the second location of the body, with it, until the first location of all. -/
def backwards : Args := ⟨.predecessors, fun x => x == (0, 0), true, true⟩

example (x : Loc) : x ∈ [(2, 1), (2, 0), (1, 0), (0, 1), (0, 0), (2, 2)] ↔
    Entered loop backwards [(2, 1)] x ∧ (backwards.includeEnd = true ∨ backwards.stop x = false) :=
  (C82_partial (G := loop) (c := backwards) [(2, 1)] (by simp [loop]) (.inl ⟨_, rfl⟩)
    [(2, 1), (2, 0), (1, 0), (0, 1), (0, 0), (2, 2)] ⟨_, ⟨20, _, rfl, rfl, rfl, rfl⟩, rfl⟩).2 x

/-- From two locations, without a condition to stop. -/
example (x : Loc) : x ∈ [(3, 1), (3, 0)] ↔ Entered loop ⟨.successors, fun _ => false, true, false⟩ [(3, 1), (3, 0)] x ∧
    (false = true ∨ false = false) :=
  (C82_partial (G := loop) (c := ⟨.successors, fun _ => false, true, false⟩) [(3, 1), (3, 0)] (by simp [loop])
    (.inr fun _ => rfl) [(3, 1), (3, 0)] ⟨_, ⟨20, _, rfl, rfl, rfl, rfl⟩, rfl⟩).2 x

example : ∃ locs, Locs loop inBody [(2, 1), (0, 0)] locs :=
  C82_terminates _ (by simp [loop]) [0, 1, 2, 3, 4] (by simp [loop, inBody, Graph.essors]) (by simp)

/-- With a function defined at the first location after the loop, whose only block is 5. -/
def withFunction : Graph := { loop with len := fun | 5 => 2 | b => loop.len b }

def definedAt : Loc → List Loc := fun x => if x = (3, 0) then [(5, 0)] else []

example (y : Loc) : y ∈ [(3, 0), (5, 0), (5, 1), (3, 1)] ↔
    Explored withFunction ⟨.successors, fun _ => false, true, false⟩ definedAt [(3, 0)] y :=
  C82_functions_partial (G := withFunction) (c := ⟨.successors, fun _ => false, true, false⟩) definedAt
    (by intro x f hf; unfold definedAt at hf; split at hf <;> simp_all [withFunction]) [(3, 0)]
    (by simp [withFunction, loop]) (.inl ⟨_, rfl⟩) [(3, 0), (5, 0), (5, 1), (3, 1)]
    (.mk (locs := [(3, 0), (3, 1)]) ⟨_, ⟨20, _, rfl, rfl, rfl, rfl⟩, rfl⟩
      (.cons (sub := [(5, 0), (5, 1)]) (.cons (sub := [(5, 0), (5, 1)]) (out := [])
        (.mk (locs := [(5, 0), (5, 1)]) ⟨_, ⟨20, _, rfl, rfl, rfl, rfl⟩, rfl⟩ (.cons (sub := []) .nil (.cons (sub := []) .nil .nil)))
        .nil) (.cons (sub := []) .nil .nil))) y

/-- **C82** is false if there are several starts and the traversal stops: from the first and the third location of the body,
stopping at the second one, only the first one is yielded. -/
theorem C82_counterexample :
    let c : Args := ⟨.successors, fun x => x == (2, 1), true, false⟩
    Locs loop c [(2, 0), (2, 2)] [(2, 0)] ∧ Entered loop c [(2, 0), (2, 2)] (2, 2) ∧ c.stop (2, 2) = false :=
  ⟨⟨_, ⟨20, _, rfl, rfl, rfl, rfl⟩, rfl⟩, .first (l := (2, 2)) (by simp) rfl, rfl⟩

end Verif.Traverse
