import Verif.Lemmas.Traverse

/-! Lemmas for C82: the traversal along predecessors is that along successors in the mirrored graph. -/

namespace Verif.Traverse

/-- The graph with all edges, and the order of the locations of each block, reversed. -/
def Graph.mirror (G : Graph) : Graph := ⟨G.pred, G.succ, G.len⟩

/-- The location in the mirrored graph. -/
def flip (G : Graph) (x : Loc) : Loc := (x.1, G.len x.1 - 1 - x.2)

def Args.mirror (G : Graph) (c : Args) : Args := ⟨.successors, fun x => c.stop (flip G x), c.includeStart, c.includeEnd⟩

def flipPiece (G : Graph) (p : Piece) : Piece := (p.1, G.len p.1 - p.2.2, G.len p.1 - p.2.1)

def flipFrame (G : Graph) (f : Frame) : Frame := ⟨f.block, G.len f.block - f.hi, G.len f.block - f.lo, f.i⟩

def flipVisited (G : Graph) (visited : Nat → Option (Nat × Nat)) : Nat → Option (Nat × Nat) :=
  fun b => (visited b).map fun v => (G.len b - v.2, G.len b - v.1)

def flipState (G : Graph) (s : State) : State :=
  ⟨s.todo.map (flip G), s.stack.map (flipFrame G), flipVisited G s.visited, s.out.map (flipPiece G)⟩

variable {G : Graph} {c : Args}

theorem flip_flip {x : Loc} (h : x.2 < G.len x.1) : flip G (flip G x) = x := by
  obtain ⟨b, p⟩ := x
  simp only at h
  simp only [flip, Prod.mk.injEq, true_and]
  omega

theorem flip_lt {x : Loc} (h : x.2 < G.len x.1) : (flip G x).2 < G.len (flip G x).1 := by
  simp only [flip]; omega

theorem flipVisited_set (visited : Nat → Option (Nat × Nat)) (b lo hi : Nat) :
    flipVisited G (setVisited visited b lo hi) =
      setVisited (flipVisited G visited) b (G.len b - hi) (G.len b - lo) := by
  funext x
  unfold flipVisited setVisited
  by_cases h : x = b
  · subst h; simp
  · simp [h]

theorem positions_flip {n lo hi : Nat} (h : hi ≤ n) :
    positions .predecessors (n - hi) (n - lo) = (positions .successors lo hi).map fun i => n - 1 - i := by
  simp only [positions]
  rcases Nat.lt_or_ge hi lo with hlt | hle
  · rw [show n - lo - (n - hi) = 0 by omega, show hi - lo = 0 by omega]; rfl
  · rw [show n - lo - (n - hi) = hi - lo by omega]
    apply List.ext_getElem
    · simp
    · intro i h1 h2
      simp only [List.length_reverse, List.length_range'] at h1
      simp only [List.getElem_reverse, List.getElem_range', List.length_range', List.getElem_map]
      omega

theorem triage_flip (hd : c.dir = .predecessors) {b lo hi : Nat} (hlo : lo ≤ hi) (hhi : hi ≤ G.len b) :
    triage c b (G.len b - hi) (G.len b - lo) =
      ((triage (c.mirror G) b lo hi).1, G.len b - (triage (c.mirror G) b lo hi).2.2,
        G.len b - (triage (c.mirror G) b lo hi).2.1) ∧
    (triage (c.mirror G) b lo hi).2.1 ≤ (triage (c.mirror G) b lo hi).2.2 ∧
    (triage (c.mirror G) b lo hi).2.2 ≤ G.len b := by
  have hfind : (positions .predecessors (G.len b - hi) (G.len b - lo)).find? (fun i => c.stop (b, i)) =
      ((positions .successors lo hi).find? fun i => (c.mirror G).stop (b, i)).map fun i => G.len b - 1 - i := by
    rw [positions_flip hhi, List.find?_map]
    rfl
  unfold triage
  rw [hd, hfind]
  simp only [show (c.mirror G).dir = .successors from rfl]
  cases hf : (positions .successors lo hi).find? fun i => (c.mirror G).stop (b, i) with
  | none => exact ⟨rfl, hlo, hhi⟩
  | some i =>
    obtain ⟨h1, h2, _⟩ := find?_range' hf
    have hi' : i < hi := by omega
    simp only [Option.map_some, show (c.mirror G).includeEnd = c.includeEnd from rfl]
    cases c.includeEnd with
    | true =>
      simp only [cut, Prod.mk.injEq, true_and]
      exact ⟨⟨by omega, trivial⟩, by omega, by omega⟩
    | false =>
      simp only [cut, Prod.mk.injEq, true_and]
      exact ⟨⟨by omega, trivial⟩, by omega, by omega⟩

theorem yielding_flip {b : Nat} {t : Bool × Nat × Nat} (h1 : t.2.1 ≤ t.2.2) (h2 : t.2.2 ≤ G.len b) :
    yielding (t.1, G.len b - t.2.2, G.len b - t.2.1) b = (yielding t b).map (flipPiece G) := by
  unfold yielding
  by_cases h : t.2.1 = t.2.2
  · simp [h]
  · rw [if_pos (by simp only [ne_eq]; omega), if_pos h]
    simp [flipPiece]

theorem enter_flip (hd : c.dir = .predecessors) {s : State} {e : Nat}
    (hv : ∀ vf vt, s.visited e = some (vf, vt) → vt = G.len e ∧ vf ≤ vt) :
    enter G c (flipState G s) e = (enter G.mirror (c.mirror G) s e).map (flipState G) := by
  have hpush : ∀ lo hi, (flipState G s).push G e (G.len e - hi) (G.len e - lo) = flipState G (s.push G.mirror e lo hi) := by
    intro lo hi
    simp only [State.push, flipState, flipVisited_set, List.map_cons, flipFrame, show G.mirror.len = G.len from rfl,
      Nat.sub_self, Nat.sub_zero]
  unfold enter
  simp only [show G.mirror.len = G.len from rfl, show (c.mirror G).dir = .successors from rfl, hd]
  by_cases hl : G.len e = 0
  · rw [if_pos hl, if_pos hl]; rfl
  · rw [if_neg hl, if_neg hl]
    simp only [show (flipState G s).visited = flipVisited G s.visited from rfl, flipVisited]
    cases hve : s.visited e with
    | none =>
      have := hpush 0 (G.len e)
      simp only [Nat.sub_self, Nat.sub_zero] at this
      simp only [Option.map_none, this]
      rfl
    | some v =>
      obtain ⟨vf, vt⟩ := v
      obtain ⟨rfl, hle⟩ := hv vf vt hve
      simp only [Option.map_some, Nat.sub_self, true_and, and_true, if_true]
      by_cases h0 : vf = 0
      · rw [if_pos (by omega), if_pos h0]; rfl
      · rw [if_neg (by omega), if_neg h0]
        have := hpush 0 vf
        simp only [Nat.sub_zero] at this
        rw [this]
        rfl

theorem expand_flip (hd : c.dir = .predecessors) {s : State} {b lo hi i : Nat} (hhi : hi ≤ G.len b)
    (hv : ∀ e vf vt, s.visited e = some (vf, vt) → vt = G.len e ∧ vf ≤ vt) :
    expand G c (flipState G s) b (G.len b - hi) (G.len b - lo) i =
      (expand G.mirror (c.mirror G) s b lo hi i).map (flipState G) := by
  unfold expand
  simp only [hd, show (c.mirror G).dir = .successors from rfl, Graph.essors, show G.mirror.succ = G.pred from rfl]
  cases hn : (G.pred b)[i]? with
  | none => rfl
  | some e =>
    simp only
    have hst : ({ flipState G s with stack := ⟨b, G.len b - hi, G.len b - lo, i + 1⟩ :: (flipState G s).stack } : State) =
        flipState G { s with stack := ⟨b, lo, hi, i + 1⟩ :: s.stack } := rfl
    rw [hst]
    by_cases hend : hi = G.len b
    · have h1 : atEnd G .predecessors b (G.len b - hi) (G.len b - lo) = true := by simp [atEnd, hend]
      have h2 : atEnd G.mirror .successors b lo hi = true := by simp [atEnd, hend, Graph.mirror]
      rw [if_pos h1, if_pos h2]
      exact enter_flip hd fun vf vt h => hv e vf vt h
    · have h1 : atEnd G .predecessors b (G.len b - hi) (G.len b - lo) = false := by simp only [atEnd, decide_eq_false_iff_not]; omega
      have h2 : atEnd G.mirror .successors b lo hi = false := by simp [atEnd, hend, Graph.mirror]
      rw [if_neg (by simp [h1]), if_neg (by simp [h2])]
      rfl

theorem advance_flip (hd : c.dir = .predecessors) {s : State} {f : Frame} (hlo : f.lo ≤ f.hi) (hhi : f.hi ≤ G.len f.block)
    (hv : ∀ e vf vt, s.visited e = some (vf, vt) → vt = G.len e ∧ vf ≤ vt) :
    advance G c (flipState G s) (flipFrame G f) = (advance G.mirror (c.mirror G) s f).map (flipState G) := by
  obtain ⟨b, lo, hi, i⟩ := f
  simp only at hlo hhi
  unfold advance
  simp only [flipFrame]
  by_cases h0 : i = 0
  · subst h0
    simp only [if_true]
    obtain ⟨h1, h2, h3⟩ := triage_flip hd hlo hhi
    simp only [h1, yielding_flip h2 h3]
    have hst : ({ flipState G s with out := (flipState G s).out ++ (yielding (triage (c.mirror G) b lo hi) b).map (flipPiece G) } : State) =
        flipState G { s with out := s.out ++ yielding (triage (c.mirror G) b lo hi) b } := by
      simp [flipState]
    rw [hst]
    cases (triage (c.mirror G) b lo hi).1 with
    | true => rfl
    | false =>
      simp only [Bool.false_eq_true, if_false]
      exact expand_flip hd h3 hv
  · simp only [h0, if_false]
    exact expand_flip hd hhi hv

theorem begin_flip (hd : c.dir = .predecessors) {s : State} {l : Loc} (hl : l.2 < G.len l.1)
    (hv : ∀ e vf vt, s.visited e = some (vf, vt) → vt = G.len e ∧ vf ≤ vt) :
    begin G c (flipState G s) (flip G l) = (begin G.mirror (c.mirror G) s l).map (flipState G) := by
  obtain ⟨b, pos⟩ := l
  simp only at hl
  have hstart : G.len b - startLo (c.mirror G) pos = startHi c (G.len b - 1 - pos) := by
    by_cases h : c.includeStart = true
    · simp only [startLo, startHi, Args.mirror, h, if_true]; omega
    · simp only [startLo, startHi, Args.mirror, h, Bool.false_eq_true, if_false]; omega
  unfold begin
  simp only [hd, show (c.mirror G).dir = .successors from rfl, show G.mirror.len = G.len from rfl, flip]
  rw [if_neg (by omega), if_neg (by omega)]
  simp only [show (flipState G s).visited = flipVisited G s.visited from rfl]
  cases hve : s.visited b with
  | none =>
    simp only [flipVisited, hve, Option.map_none]
    simp only [Except.map, flipState, flipVisited_set, hstart, List.map_cons, List.map_nil, flipFrame, Nat.sub_self]
  | some v =>
    obtain ⟨vf, vt⟩ := v
    obtain ⟨rfl, hle⟩ := hv b vf vt hve
    simp only [flipVisited, hve, Option.map_some, Nat.sub_self, Nat.zero_le, true_and, if_true]
    by_cases hin : vf ≤ pos
    · rw [if_pos (by omega), if_pos ⟨hin, hl⟩]; rfl
    · rw [if_neg (by omega), if_neg (by omega)]
      simp only [Except.map, flipState, flipVisited_set, hstart, List.map_cons, List.map_nil, flipFrame, Nat.sub_self]

/-- What the invariant says about bounds. -/
theorem good_bounds {E : Loc → Prop} {started : List Loc} {s : State} (h : Good G c E started s) :
    (∀ f ∈ s.stack, f.lo ≤ f.hi ∧ f.hi ≤ G.len f.block) ∧
    ∀ e vf vt, s.visited e = some (vf, vt) → vt = G.len e ∧ vf ≤ vt := by
  obtain ⟨_, _, done, ⟨_, hi⟩ | ⟨b, lo, hi', rest, he, hi⟩⟩ := h
  · refine ⟨fun f hf => ?_, hi.vto⟩
    obtain ⟨_, _, _, h3, h4⟩ := hi.bound _ (by simp only [List.append_nil]; exact (hi.frames f hf).1)
    exact ⟨h3, h4⟩
  · refine ⟨fun f hf => ?_, hi.vto⟩
    rw [he] at hf
    rcases List.mem_cons.1 hf with rfl | hf
    · obtain ⟨_, _, _, h3, h4⟩ := hi.bound (b, lo, hi') (by simp)
      exact ⟨h3, h4⟩
    · obtain ⟨_, _, _, h3, h4⟩ := hi.bound _ (List.mem_append_left _ (hi.frames f hf).1)
      exact ⟨h3, h4⟩

theorem step_flip (hd : c.dir = .predecessors) {E : Loc → Prop} {started : List Loc} {s : State}
    (h : Good G.mirror (c.mirror G) E started s) (htodo : ∀ l ∈ s.todo, l.2 < G.len l.1) :
    step G c (flipState G s) = (step G.mirror (c.mirror G) s).map (flipState G) := by
  obtain ⟨hf, hv⟩ := good_bounds h
  unfold step
  cases hst : s.stack with
  | cons f rest =>
    simp only [show (flipState G s).stack = s.stack.map (flipFrame G) from rfl, hst, List.map_cons]
    have := hf f (by simp [hst])
    exact advance_flip (s := { s with stack := rest }) hd this.1 this.2 hv
  | nil =>
    simp only [show (flipState G s).stack = s.stack.map (flipFrame G) from rfl, hst, List.map_nil]
    cases htd : s.todo with
    | nil =>
      simp only [show (flipState G s).todo = s.todo.map (flip G) from rfl, htd, List.map_nil]
      simp only [Except.map]
    | cons l todo =>
      simp only [show (flipState G s).todo = s.todo.map (flip G) from rfl, htd, List.map_cons]
      have := begin_flip (s := { s with todo := todo }) hd (htodo l (by simp [htd])) hv
      simp only [flipState, hst, List.map_nil] at this ⊢
      exact this

theorem run_flip (hd : c.dir = .predecessors) {starts : List Loc} (hlocs : ∀ l ∈ starts, l.2 < G.len l.1) :
    ∀ (n : Nat) (s : State) (started : List Loc), starts = started ++ s.todo →
      Good G.mirror (c.mirror G) (Entered G.mirror (c.mirror G) starts) started s →
      run G c n (flipState G s) = (run G.mirror (c.mirror G) n s).map (flipState G)
  | 0, s, _, _, _ => rfl
  | n + 1, s, started, hsub, h => by
    obtain ⟨s', started', h1, h2, h3⟩ := good_step (G := G.mirror) (c := c.mirror G) rfl hlocs hsub h
    have hstep := step_flip hd h fun l hl => hlocs l (by rw [hsub]; simp [hl])
    rw [h1] at hstep
    simp only [run, hstep, h1, Except.map]
    exact run_flip hd hlocs n s' started' h2 h3

/-! ### What the traversal gets to -/

theorem next_valid {dir : Dir} {x y : Loc} (h : Next G dir x y) : x.2 < G.len x.1 ∧ y.2 < G.len y.1 := by
  cases h with
  | succ h => exact ⟨by simp only; omega, h⟩
  | succEdge h1 _ h2 => exact ⟨by simp only; omega, h2⟩
  | pred h => exact ⟨h, by simp only; omega⟩
  | predEdge h1 _ h2 => exact ⟨h1, by simp only; omega⟩

theorem next_flip {x y : Loc} (h : Next G .predecessors x y) : Next G.mirror .successors (flip G x) (flip G y) := by
  cases h with
  | @pred b p h =>
    have := Next.succ (G := G.mirror) (b := b) (p := G.len b - 1 - (p + 1)) (by simp only [Graph.mirror]; omega)
    simp only [flip]
    rwa [show G.len b - 1 - (p + 1) + 1 = G.len b - 1 - p by omega] at this
  | @predEdge b t q h1 h2 h3 =>
    simp only [flip]
    rw [show G.len t - 1 - q = 0 by omega]
    exact .succEdge (by simp only [Graph.mirror]; omega) h2 (by simp only [Graph.mirror]; omega)

theorem next_unflip {x y : Loc} (h : Next G.mirror .successors x y) : Next G .predecessors (flip G x) (flip G y) := by
  cases h with
  | @succ b p h =>
    simp only [Graph.mirror] at h
    have := Next.pred (G := G) (b := b) (p := G.len b - 1 - (p + 1)) (by omega)
    simp only [flip]
    rwa [show G.len b - 1 - (p + 1) + 1 = G.len b - 1 - p by omega] at this
  | @succEdge b p t h1 h2 h3 =>
    simp only [Graph.mirror] at h1 h2 h3
    simp only [flip]
    rw [show G.len b - 1 - p = 0 by omega]
    exact .predEdge (by omega) h2 (by omega)

theorem entered_valid {starts : List Loc} (hlocs : ∀ l ∈ starts, l.2 < G.len l.1) {x : Loc} (h : Entered G c starts x) :
    x.2 < G.len x.1 := by
  cases h with
  | first hl hx =>
    unfold First at hx
    split at hx
    · rw [hx]; exact hlocs _ hl
    · exact (next_valid hx).2
  | next _ _ h => exact (next_valid h).2

theorem entered_flip (hd : c.dir = .predecessors) {starts : List Loc} {x : Loc}
    (h : Entered G c starts x) : Entered G.mirror (c.mirror G) (starts.map (flip G)) (flip G x) := by
  induction h with
  | @first l x hl hx =>
    refine .first (l := flip G l) (List.mem_map_of_mem hl) ?_
    unfold First at hx ⊢
    simp only [show (c.mirror G).includeStart = c.includeStart from rfl]
    split at hx
    · rename_i hi; rw [if_pos hi, hx]
    · rename_i hi; rw [if_neg hi]; exact next_flip (hd ▸ hx)
  | @next x y hx hs hxy ih =>
    refine .next ih ?_ (next_flip (hd ▸ hxy))
    simp only [Args.mirror]
    rw [flip_flip (next_valid hxy).1]
    exact hs

theorem entered_unflip (hd : c.dir = .predecessors) {starts : List Loc} (hlocs : ∀ l ∈ starts, l.2 < G.len l.1) {x : Loc}
    (h : Entered G.mirror (c.mirror G) (starts.map (flip G)) x) : Entered G c starts (flip G x) := by
  induction h with
  | @first l x hl hx =>
    obtain ⟨l', hl', rfl⟩ := List.mem_map.1 hl
    refine .first hl' ?_
    unfold First at hx ⊢
    simp only [show (c.mirror G).includeStart = c.includeStart from rfl] at hx
    split at hx
    · rename_i hi; rw [if_pos hi, hx, flip_flip (hlocs _ hl')]
    · rename_i hi
      rw [if_neg hi, hd]
      have := next_unflip hx
      rwa [flip_flip (hlocs _ hl')] at this
  | next hx hs hxy ih => exact .next ih hs (hd ▸ next_unflip hxy)

theorem locsOf_flip : ∀ {out : List Piece}, (∀ t ∈ out, t.2.2 ≤ G.len t.1) →
    locsOf .predecessors (out.map (flipPiece G)) = (locsOf .successors out).map (flip G)
  | [], _ => rfl
  | t :: out, h => by
    have ih := locsOf_flip (out := out) fun t ht => h t (by simp [ht])
    have ht := h t (by simp)
    simp only [locsOf, List.map_cons, List.flatMap_cons, List.map_append] at ih ⊢
    rw [ih]
    congr 1
    simp only [flipPiece]
    rw [positions_flip ht]
    simp [flip, Function.comp_def]

end Verif.Traverse
