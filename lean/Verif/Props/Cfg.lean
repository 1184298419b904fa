import Verif.Model.Cfg

/-! C29: traversals of control flow graphs. -/

namespace Verif.Cfg

variable {succ : Nat → List Nat}

/-- There is a path from `a` to `b`. -/
inductive Reach (succ : Nat → List Nat) (a : Nat) : Nat → Prop
  | start : Reach succ a a
  | next {b c : Nat} : Reach succ a b → c ∈ succ b → Reach succ a c

/-- A set that has `a` and is closed under successors has everything reachable from `a`. -/
theorem Reach.mem {a b : Nat} (h : Reach succ a b) {P : Nat → Prop} (ha : P a)
    (hc : ∀ x, P x → ∀ y ∈ succ x, P y) : P b := by
  induction h with
  | start => exact ha
  | next _ hmem ih => exact hc _ ih _ hmem

theorem Reach.trans {a b c : Nat} (h : Reach succ a b) (h' : Reach succ b c) : Reach succ a c := by
  induction h' with
  | start => exact h
  | next _ hmem ih => exact ih.next hmem

/-! ### `get_blocks` -/

/-- The block on top of the stack that has not been yielded yet. -/
def pending : List (Nat × Nat) → List Nat
  | (0, b) :: _ => [b]
  | _ => []

structure Inv (succ : Nat → List Nat) (start : Nat) (s : Dfs) : Prop where
  nodup : s.visited.Nodup
  yielded : s.visited = s.out ++ pending s.stack
  onStack : ∀ p ∈ s.stack, p.2 ∈ s.visited ∧ p.1 ≤ (succ p.2).length ∧
    ∀ j t, j < p.1 → (succ p.2)[j]? = some t → t ∈ s.visited
  below : ∀ p ∈ s.stack.tail, p.1 ≠ 0
  reach : ∀ v ∈ s.visited, Reach succ start v
  done : ∀ v ∈ s.visited, (∃ i, (i, v) ∈ s.stack) ∨ ∀ t ∈ succ v, t ∈ s.visited
  start : start ∈ s.visited

theorem inv_init (start : Nat) : Inv succ start (Dfs.init start) where
  nodup := by simp [Dfs.init]
  yielded := by simp [Dfs.init, pending]
  onStack := by simp [Dfs.init]
  below := by simp [Dfs.init]
  reach := by simp only [Dfs.init, List.mem_singleton]; rintro v rfl; exact .start
  done := by simp [Dfs.init]
  start := by simp [Dfs.init]

theorem pending_ne {p : Nat × Nat} {rest : List (Nat × Nat)} (h : p.1 ≠ 0) : pending (p :: rest) = [] := by
  obtain ⟨i, b⟩ := p
  cases i with
  | zero => exact absurd rfl h
  | succ i => rfl

theorem pending_below {rest : List (Nat × Nat)} (h : ∀ p ∈ rest, p.1 ≠ 0) : pending rest = [] := by
  cases rest with
  | nil => rfl
  | cons p rest => exact pending_ne (h p (by simp))

theorem inv_step {start : Nat} {s : Dfs} (h : Inv succ start s) : Inv succ start (s.step succ) := by
  obtain ⟨stack, visited, out⟩ := s
  cases stack with
  | nil => exact h
  | cons p rest =>
    obtain ⟨i, b⟩ := p
    have hyield : visited = (if i = 0 then out ++ [b] else out) := by
      have := h.yielded
      cases i with
      | zero => simpa [pending] using this
      | succ i => simpa [pending] using this
    have hbelow : ∀ p ∈ rest, p.1 ≠ 0 := h.below
    obtain ⟨hb, hile, hseen⟩ := h.onStack (i, b) (by simp)
    simp only [Dfs.step]
    cases hn : (succ b)[i]? with
    | none =>
      have hlen : (succ b).length ≤ i := List.getElem?_eq_none_iff.1 hn
      refine ⟨h.nodup, ?_, ?_, ?_, h.reach, ?_, h.start⟩
      · simp only [pending_below hbelow, List.append_nil]; exact hyield
      · intro p hp; exact h.onStack p (by simp [hp])
      · intro p hp; exact hbelow p (List.mem_of_mem_tail hp)
      · intro v hv
        rcases h.done v hv with ⟨j, hj⟩ | hd
        · rcases List.mem_cons.1 hj with heq | hj
          · simp only [Prod.mk.injEq] at heq
            obtain ⟨rfl, rfl⟩ := heq
            right
            intro t ht
            obtain ⟨k, hk, rfl⟩ := List.mem_iff_getElem.1 ht
            exact hseen k _ (by simp only; omega) (List.getElem?_eq_getElem hk)
          · exact .inl ⟨j, hj⟩
        · exact .inr hd
    | some next =>
      obtain ⟨hilt, hnext⟩ := List.getElem?_eq_some_iff.1 hn
      simp only
      split
      · rename_i hvis
        refine ⟨h.nodup, ?_, ?_, ?_, h.reach, ?_, h.start⟩
        · rw [pending_ne (by simp)]; simpa using hyield
        · intro p hp
          rcases List.mem_cons.1 hp with rfl | hp
          · refine ⟨hb, by simp only; omega, ?_⟩
            intro j t hj ht
            simp only at hj ht
            rcases Nat.lt_or_ge j i with hji | hji
            · exact hseen j t hji ht
            · have hji : j = i := by omega
              subst hji
              rw [hn, Option.some.injEq] at ht
              subst ht
              exact hvis
          · exact h.onStack p (by simp [hp])
        · exact hbelow
        · intro v hv
          rcases h.done v hv with ⟨j, hj⟩ | hd
          · rcases List.mem_cons.1 hj with heq | hj
            · simp only [Prod.mk.injEq] at heq
              obtain ⟨rfl, rfl⟩ := heq
              exact .inl ⟨j + 1, by simp⟩
            · exact .inl ⟨j, by simp [hj]⟩
          · exact .inr hd
      · rename_i hvis
        have hmono : ∀ {x}, x ∈ visited → x ∈ visited ++ [next] := fun hx => by simp [hx]
        refine ⟨?_, ?_, ?_, ?_, ?_, ?_, hmono h.start⟩
        · rw [List.nodup_append]
          exact ⟨h.nodup, by simp, by
            intro a ha c hc
            simp only [List.mem_singleton] at hc
            subst hc
            intro heq
            subst heq
            exact hvis ha⟩
        · simp only [pending]; rw [← hyield]
        · intro p hp
          rcases List.mem_cons.1 hp with rfl | hp
          · exact ⟨by simp, by simp, by simp⟩
          · rcases List.mem_cons.1 hp with rfl | hp
            · refine ⟨hmono hb, by simp only; omega, ?_⟩
              intro j t hj ht
              simp only at hj ht
              rcases Nat.lt_or_ge j i with hji | hji
              · exact hmono (hseen j t hji ht)
              · have hji : j = i := by omega
                subst hji
                rw [hn, Option.some.injEq] at ht
                subst ht
                simp
            · obtain ⟨h1, h2, h3⟩ := h.onStack p (by simp [hp])
              exact ⟨hmono h1, h2, fun j t hj ht => hmono (h3 j t hj ht)⟩
        · intro p hp
          simp only [List.tail_cons, List.mem_cons] at hp
          rcases hp with rfl | hp
          · simp
          · exact hbelow p hp
        · intro v hv
          rcases List.mem_append.1 hv with hv | hv
          · exact h.reach v hv
          · simp only [List.mem_singleton] at hv
            subst hv
            exact (h.reach b hb).next (List.mem_of_getElem? hn)
        · intro v hv
          rcases List.mem_append.1 hv with hv | hv
          · rcases h.done v hv with ⟨j, hj⟩ | hd
            · rcases List.mem_cons.1 hj with heq | hj
              · simp only [Prod.mk.injEq] at heq
                obtain ⟨rfl, rfl⟩ := heq
                exact .inl ⟨j + 1, by simp⟩
              · exact .inl ⟨j, by simp [hj]⟩
            · exact .inr fun t ht => hmono (hd t ht)
          · simp only [List.mem_singleton] at hv
            subst hv
            exact .inl ⟨0, by simp⟩

theorem inv_run {start : Nat} : ∀ (n : Nat) {s : Dfs}, Inv succ start s → Inv succ start (s.run succ n)
  | 0, _, h => h
  | n + 1, _, h => inv_run n (inv_step h)

/-- What is left to do: edges of the blocks on the stack, and blocks not visited. -/
def potential (succ : Nat → List Nat) (nodes : List Nat) (s : Dfs) : Nat :=
  (s.stack.map fun p => (succ p.2).length + 1 - p.1).sum +
    ((nodes.filter (· ∉ s.visited)).map fun b => (succ b).length + 2).sum

theorem sum_filter_visit (f : Nat → Nat) (visited : List Nat) (x : Nat) (hx : x ∉ visited) : ∀ (nodes : List Nat),
    nodes.Nodup → x ∈ nodes →
    ((nodes.filter (· ∉ visited ++ [x])).map f).sum + f x = ((nodes.filter (· ∉ visited)).map f).sum
  | [], _, h => by cases h
  | y :: nodes, hnd, h => by
    have hnd' := List.nodup_cons.1 hnd
    by_cases hy : y = x
    · subst hy
      have hsame : nodes.filter (· ∉ visited ++ [y]) = nodes.filter (· ∉ visited) := by
        apply List.filter_congr
        intro z hz
        have : z ≠ y := fun h => hnd'.1 (h ▸ hz)
        simp [this]
      rw [List.filter_cons_of_neg (by simp), List.filter_cons_of_pos (by simpa using hx), hsame]
      simp [Nat.add_comm]
    · have hmem : x ∈ nodes := by
        rcases List.mem_cons.1 h with h | h
        · exact absurd h.symm hy
        · exact h
      have ih := sum_filter_visit f visited x hx nodes hnd'.2 hmem
      by_cases hv : y ∈ visited
      · rw [List.filter_cons_of_neg (by simp [hv]), List.filter_cons_of_neg (by simp [hv])]
        exact ih
      · rw [List.filter_cons_of_pos (by simp [hv, hy]), List.filter_cons_of_pos (by simp [hv])]
        simp only [List.map_cons, List.sum_cons]
        omega

theorem potential_step {start : Nat} {nodes : List Nat} (hnd : nodes.Nodup)
    (hclosed : ∀ b, Reach succ start b → b ∈ nodes) {s : Dfs} (h : Inv succ start s) (hne : s.stack ≠ []) :
    potential succ nodes (s.step succ) < potential succ nodes s := by
  obtain ⟨stack, visited, out⟩ := s
  cases stack with
  | nil => exact absurd rfl hne
  | cons p rest =>
    obtain ⟨i, b⟩ := p
    obtain ⟨hb, hile, _⟩ := h.onStack (i, b) (by simp)
    simp only at hile
    simp only [Dfs.step]
    cases hn : (succ b)[i]? with
    | none =>
      simp only [potential, List.map_cons, List.sum_cons]
      omega
    | some next =>
      simp only
      obtain ⟨hilt, _⟩ := List.getElem?_eq_some_iff.1 hn
      split
      · simp only [potential, List.map_cons, List.sum_cons]
        omega
      · rename_i hvis
        have hmem : next ∈ nodes := hclosed _ ((h.reach b hb).next (List.mem_of_getElem? hn))
        have := sum_filter_visit (fun b => (succ b).length + 2) visited next hvis nodes hnd hmem
        simp only [potential, List.map_cons, List.sum_cons]
        omega

theorem terminates {start : Nat} {nodes : List Nat} (hnd : nodes.Nodup)
    (hclosed : ∀ b, Reach succ start b → b ∈ nodes) : ∀ (k : Nat) (s : Dfs), Inv succ start s →
    potential succ nodes s ≤ k → ∃ n, (s.run succ n).stack = []
  | k, s, h, hk => by
    by_cases hs : s.stack = []
    · exact ⟨0, hs⟩
    · have hlt := potential_step hnd hclosed h hs
      match k with
      | 0 => omega
      | k + 1 =>
        obtain ⟨n, hn⟩ := terminates hnd hclosed k (s.step succ) (inv_step h) (by omega)
        exact ⟨n + 1, hn⟩

/-- C29, soundness and completeness of `get_blocks`: what it yields are exactly the blocks reachable from the
start, each once. -/
theorem C29_blocks {start : Nat} {blocks : List Nat} (h : Yields succ start blocks) :
    blocks.Nodup ∧ ∀ b, b ∈ blocks ↔ Reach succ start b := by
  obtain ⟨n, hempty, rfl⟩ := h
  have hinv : Inv succ start ((Dfs.init start).run succ n) := inv_run n (inv_init start)
  have hout : ((Dfs.init start).run succ n).visited = ((Dfs.init start).run succ n).out := by
    have := hinv.yielded
    rw [hempty] at this
    simpa [pending] using this
  rw [← hout]
  refine ⟨hinv.nodup, fun b => ⟨hinv.reach b, fun hr => ?_⟩⟩
  refine hr.mem hinv.start ?_
  intro x hx y hy
  rcases hinv.done x hx with ⟨i, hi⟩ | hd
  · rw [hempty] at hi; cases hi
  · exact hd y hy

theorem exists_nodup : ∀ (nodes : List Nat), ∃ l : List Nat, l.Nodup ∧ ∀ x ∈ nodes, x ∈ l
  | [] => ⟨[], by simp, by simp⟩
  | x :: nodes => by
    obtain ⟨l, hnd, h⟩ := exists_nodup nodes
    by_cases hx : x ∈ l
    · exact ⟨l, hnd, by simpa [hx] using h⟩
    · exact ⟨x :: l, List.nodup_cons.2 ⟨hx, hnd⟩, by simpa using fun y hy => Or.inr (h y hy)⟩

/-- C29, termination of `get_blocks`: if finitely many blocks are reachable, all of them are yielded after
finitely many iterations. -/
theorem C29_terminates {start : Nat} {nodes : List Nat} (hclosed : ∀ b, Reach succ start b → b ∈ nodes) :
    ∃ blocks, Yields succ start blocks := by
  obtain ⟨l, hnd, hl⟩ := exists_nodup nodes
  obtain ⟨n, hn⟩ := terminates hnd (fun b hb => hl b (hclosed b hb)) _ _ (inv_init start) (Nat.le_refl _)
  exact ⟨_, n, hn, rfl⟩

/-- What is yielded does not depend on when the loop is looked at. -/
theorem run_empty : ∀ (n : Nat) {s : Dfs}, s.stack = [] → s.run succ n = s
  | 0, _, _ => rfl
  | n + 1, s, h => by
    have : s.step succ = s := by
      obtain ⟨stack, visited, out⟩ := s
      simp only at h
      subst h
      rfl
    rw [Dfs.run, this]
    exact run_empty n h

theorem run_add : ∀ (n m : Nat) (s : Dfs), s.run succ (n + m) = (s.run succ n).run succ m
  | 0, m, s => by rw [Nat.zero_add]; rfl
  | n + 1, m, s => by rw [Nat.add_right_comm]; exact run_add n m (s.step succ)

theorem Yields.unique {start : Nat} {bs bs' : List Nat} (h : Yields succ start bs) (h' : Yields succ start bs') :
    bs = bs' := by
  obtain ⟨n, hn, rfl⟩ := h
  obtain ⟨m, hm, rfl⟩ := h'
  have h1 := run_add (succ := succ) n m (Dfs.init start)
  have h2 := run_add (succ := succ) m n (Dfs.init start)
  rw [run_empty m hn] at h1
  rw [run_empty n hm] at h2
  rw [Nat.add_comm] at h2
  rw [← h1, ← h2]

/-! ### Recursive traversals -/

/-- What a recursive traversal from some blocks does with the set of visited blocks. -/
structure Visits (succ : Nat → List Nat) (from_ : List Nat) (visited new visited' : List Nat) : Prop where
  nodup : new.Nodup
  fresh : ∀ x ∈ new, x ∉ visited
  mem : ∀ x, x ∈ visited' ↔ x ∈ visited ∨ x ∈ new
  starts : ∀ b ∈ from_, b ∈ visited'
  reach : ∀ x ∈ new, ∃ b ∈ from_, Reach succ b x
  closed : ∀ x ∈ new, ∀ y ∈ succ x, y ∈ visited'

theorem Visits.append {b : Nat} {bs v n v' n' v'' : List Nat} (h : Visits succ [b] v n v')
    (h' : Visits succ bs v' n' v'') : Visits succ (b :: bs) v (n ++ n') v'' where
  nodup := by
    rw [List.nodup_append]
    refine ⟨h.nodup, h'.nodup, ?_⟩
    intro x hx y hy heq
    subst heq
    exact h'.fresh x hy ((h.mem x).2 (.inr hx))
  fresh := by
    intro x hx
    rcases List.mem_append.1 hx with hx | hx
    · exact h.fresh x hx
    · exact fun hv => h'.fresh x hx ((h.mem x).2 (.inl hv))
  mem := by
    intro x
    rw [h'.mem, h.mem, List.mem_append, or_assoc]
  starts := by
    intro c hc
    rcases List.mem_cons.1 hc with rfl | hc
    · exact (h'.mem c).2 (.inl (h.starts c (by simp)))
    · exact h'.starts c hc
  reach := by
    intro x hx
    rcases List.mem_append.1 hx with hx | hx
    · obtain ⟨c, hc, hr⟩ := h.reach x hx
      exact ⟨c, List.mem_cons.2 (.inl (by simpa using hc)), hr⟩
    · obtain ⟨c, hc, hr⟩ := h'.reach x hx
      exact ⟨c, List.mem_cons.2 (.inr hc), hr⟩
  closed := by
    intro x hx y hy
    rcases List.mem_append.1 hx with hx | hx
    · exact (h'.mem y).2 (.inl (h.closed x hx y hy))
    · exact h'.closed x hx y hy

theorem Visits.nil (v : List Nat) : Visits succ [] v [] v := by
  refine ⟨?_, ?_, ?_, ?_, ?_, ?_⟩ <;> simp

theorem Visits.skip {b : Nat} {v : List Nat} (h : b ∈ v) : Visits succ [b] v [] v := by
  refine ⟨?_, ?_, ?_, ?_, ?_, ?_⟩ <;> simp [h]

/-- A block that has not been visited, after the traversal of its successors. -/
theorem Visits.block {b : Nat} {v n v' : List Nat} (hb : b ∉ v) (h : Visits succ (succ b) (b :: v) n v') :
    Visits succ [b] v (n ++ [b]) v' where
  nodup := by
    rw [List.nodup_append]
    refine ⟨h.nodup, by simp, ?_⟩
    intro x hx y hy heq
    simp only [List.mem_singleton] at hy
    subst heq hy
    exact h.fresh _ hx (by simp)
  fresh := by
    intro x hx
    rcases List.mem_append.1 hx with hx | hx
    · exact fun hv => h.fresh x hx (by simp [hv])
    · simp only [List.mem_singleton] at hx; subst hx; exact hb
  mem := by
    intro x
    rw [h.mem]
    simp only [List.mem_cons, List.mem_append, List.not_mem_nil, or_false]
    constructor
    · rintro ((h | h) | h)
      · exact .inr (.inr h)
      · exact .inl h
      · exact .inr (.inl h)
    · rintro (h | h | h)
      · exact .inl (.inr h)
      · exact .inr h
      · exact .inl (.inl h)
  starts := by
    intro c hc
    simp only [List.mem_singleton] at hc
    subst hc
    exact (h.mem c).2 (.inl (by simp))
  reach := by
    intro x hx
    refine ⟨b, by simp, ?_⟩
    rcases List.mem_append.1 hx with hx | hx
    · obtain ⟨c, hc, hr⟩ := h.reach x hx
      exact (Reach.start.next hc).trans hr
    · simp only [List.mem_singleton] at hx; subst hx; exact .start
  closed := by
    intro x hx y hy
    rcases List.mem_append.1 hx with hx | hx
    · exact h.closed x hx y hy
    · simp only [List.mem_singleton] at hx; subst hx; exact h.starts y hy

theorem visitAll_spec {f : Nat → List Nat → Except PyErr (List Nat × List Nat)}
    (hf : ∀ b v out v', f b v = .ok (out, v') → Visits succ [b] v out v') : ∀ (bs v out v' : List Nat),
    visitAll f bs v = .ok (out, v') → Visits succ bs v out v'
  | [], v, out, v', h => by
    simp only [visitAll, Except.ok.injEq, Prod.mk.injEq] at h
    obtain ⟨rfl, rfl⟩ := h
    exact .nil v
  | b :: bs, v, out, v', h => by
    simp only [visitAll] at h
    cases hb : f b v with
    | error x => simp [hb] at h
    | ok p =>
      obtain ⟨o1, v1⟩ := p
      cases hbs : visitAll f bs v1 with
      | error x => simp [hb, hbs] at h
      | ok p =>
        obtain ⟨o2, v2⟩ := p
        simp only [hb, hbs, Except.ok.injEq, Prod.mk.injEq] at h
        obtain ⟨rfl, rfl⟩ := h
        exact (hf b v o1 v1 hb).append (visitAll_spec hf bs v1 o2 v2 hbs)

theorem postorderFrom_spec : ∀ (limit b : Nat) (v out v' : List Nat), postorderFrom succ limit b v = .ok (out, v') →
    Visits succ [b] v out v'
  | 0, _, _, _, _, h => by simp [postorderFrom] at h
  | limit + 1, b, v, out, v', h => by
    simp only [postorderFrom] at h
    split at h
    · rename_i hb
      simp only [Except.ok.injEq, Prod.mk.injEq] at h
      obtain ⟨rfl, rfl⟩ := h
      exact .skip hb
    · rename_i hb
      cases hv : visitAll (postorderFrom succ limit) (succ b) (b :: v) with
      | error x => simp [hv] at h
      | ok p =>
        obtain ⟨o, w⟩ := p
        simp only [hv, Except.ok.injEq, Prod.mk.injEq] at h
        obtain ⟨rfl, rfl⟩ := h
        exact .block hb (visitAll_spec (postorderFrom_spec limit) _ _ _ _ hv)

/-- The blocks visited from a start are the reachable ones. -/
theorem Visits.all {start : Nat} {out v' : List Nat} (h : Visits succ [start] [] out v') (b : Nat) :
    b ∈ out ↔ Reach succ start b := by
  constructor
  · intro hb
    obtain ⟨c, hc, hr⟩ := h.reach b hb
    simp only [List.mem_singleton] at hc
    subst hc
    exact hr
  · intro hr
    refine hr.mem ?_ ?_
    · simpa using (h.mem start).1 (h.starts start (by simp))
    · intro x hx y hy
      simpa using (h.mem y).1 (h.closed x hx y hy)

/-- C29, `get_blocks_postorder`: unless the recursion is too deep, exactly the reachable blocks are yielded, each
once. -/
theorem C29_postorder {limit start : Nat} {blocks : List Nat} (h : postorder succ limit start = .ok blocks) :
    blocks.Nodup ∧ ∀ b, b ∈ blocks ↔ Reach succ start b := by
  unfold postorder at h
  cases hp : postorderFrom succ limit start [] with
  | error x => simp [hp] at h
  | ok p =>
    obtain ⟨o, w⟩ := p
    simp only [hp, Except.ok.injEq] at h
    subst h
    have := postorderFrom_spec limit start [] o w hp
    exact ⟨this.nodup, this.all⟩

/-! The depth of the recursion is at most the number of blocks. -/

theorem filter_length_le (nodes v v' : List Nat) (h : ∀ x ∈ v, x ∈ v') :
    (nodes.filter (· ∉ v')).length ≤ (nodes.filter (· ∉ v)).length := by
  induction nodes with
  | nil => simp
  | cons y nodes ih =>
    by_cases hy : y ∈ v
    · rw [List.filter_cons_of_neg (p := (· ∉ v)) (by simp [hy]), List.filter_cons_of_neg (p := (· ∉ v')) (by simp [h y hy])]
      exact ih
    · rw [List.filter_cons_of_pos (p := (· ∉ v)) (by simp [hy])]
      by_cases hy' : y ∈ v'
      · rw [List.filter_cons_of_neg (by simp [hy'])]
        simp only [List.length_cons]
        omega
      · rw [List.filter_cons_of_pos (by simp [hy'])]
        simp only [List.length_cons]
        omega

theorem filter_length_lt {nodes v : List Nat} {b : Nat} (hb : b ∉ v) (hmem : b ∈ nodes) :
    (nodes.filter (· ∉ b :: v)).length < (nodes.filter (· ∉ v)).length := by
  induction nodes with
  | nil => cases hmem
  | cons y nodes ih =>
    have hle := filter_length_le nodes v (b :: v) (fun x hx => by simp [hx])
    by_cases hyb : y = b
    · subst hyb
      rw [List.filter_cons_of_neg (by simp), List.filter_cons_of_pos (by simpa using hb)]
      simp only [List.length_cons]
      omega
    · have hmem' : b ∈ nodes := by
        rcases List.mem_cons.1 hmem with h | h
        · exact absurd h.symm hyb
        · exact h
      by_cases hy : y ∈ v
      · rw [List.filter_cons_of_neg (by simp [hy]), List.filter_cons_of_neg (by simp [hy])]
        exact ih hmem'
      · rw [List.filter_cons_of_pos (by simp [hy, hyb]), List.filter_cons_of_pos (by simp [hy])]
        simp only [List.length_cons]
        exact Nat.succ_lt_succ (ih hmem')

theorem visitAll_ok {f : Nat → List Nat → Except PyErr (List Nat × List Nat)} {nodes : List Nat} {k : Nat}
    (hf : ∀ b v out v', f b v = .ok (out, v') → Visits succ [b] v out v')
    (hok : ∀ b v, b ∈ nodes → (nodes.filter (· ∉ v)).length < k → ∃ r, f b v = .ok r) : ∀ (bs v : List Nat),
    (∀ b ∈ bs, b ∈ nodes) → (nodes.filter (· ∉ v)).length < k → ∃ r, visitAll f bs v = .ok r
  | [], v, _, _ => ⟨_, rfl⟩
  | b :: bs, v, hbs, hk => by
    obtain ⟨⟨o, w⟩, hr⟩ := hok b v (hbs b (by simp)) hk
    have hsub : ∀ x ∈ v, x ∈ w := fun x hx => ((hf b v o w hr).mem x).2 (.inl hx)
    obtain ⟨⟨o', w'⟩, hr'⟩ := visitAll_ok hf hok bs w (fun c hc => hbs c (by simp [hc]))
      (Nat.lt_of_le_of_lt (filter_length_le nodes v w hsub) hk)
    exact ⟨(o ++ o', w'), by simp [visitAll, hr, hr']⟩

theorem postorderFrom_ok {nodes : List Nat} (hclosed : ∀ b ∈ nodes, ∀ c ∈ succ b, c ∈ nodes) : ∀ (limit b : Nat) (v : List Nat),
    b ∈ nodes → (nodes.filter (· ∉ v)).length < limit → ∃ r, postorderFrom succ limit b v = .ok r
  | 0, _, _, _, h => by omega
  | limit + 1, b, v, hb, hk => by
    simp only [postorderFrom]
    split
    · exact ⟨_, rfl⟩
    · rename_i hv
      have hlt := filter_length_lt hv hb
      obtain ⟨⟨o, w⟩, hr⟩ := visitAll_ok (postorderFrom_spec limit) (postorderFrom_ok hclosed limit) (succ b) (b :: v)
        (hclosed b hb) (by omega)
      exact ⟨(o ++ [b], w), by simp [hr]⟩

/-- C29: the recursion of `get_blocks_postorder` is not deeper than there are blocks, so a graph with fewer blocks
than the limit is enumerated. -/
theorem C29_postorder_terminates {limit start : Nat} {nodes : List Nat}
    (hclosed : ∀ b ∈ nodes, ∀ c ∈ succ b, c ∈ nodes) (hstart : start ∈ nodes) (hlimit : nodes.length < limit) :
    ∃ blocks, postorder succ limit start = .ok blocks := by
  obtain ⟨⟨o, w⟩, hr⟩ := postorderFrom_ok hclosed limit start [] hstart
    (Nat.lt_of_le_of_lt (List.length_filter_le _ _) hlimit)
  exact ⟨o, by simp [postorder, hr]⟩

/-! ### `get_edges` -/

/-- The edges given by a traversal are those of the blocks newly visited. -/
def EdgesOf (succ : Nat → List Nat) (new : List Nat) (out : List (Nat × Nat)) : Prop :=
  out.Nodup ∧ ∀ c i, (c, i) ∈ out ↔ c ∈ new ∧ i < (succ c).length

theorem visitEdges_spec {f : Nat → List Nat → Except PyErr (List (Nat × Nat) × List Nat)}
    (hf : ∀ b v out v', f b v = .ok (out, v') → ∃ new, Visits succ [b] v new v' ∧ EdgesOf succ new out) (b : Nat) :
    ∀ (ts : List Nat) (i : Nat) (v : List Nat) (out : List (Nat × Nat)) (v' : List Nat), b ∈ v →
    visitEdges f b i ts v = .ok (out, v') → ∃ new, Visits succ ts v new v' ∧ out.Nodup ∧
      ∀ c j, (c, j) ∈ out ↔ (c = b ∧ i ≤ j ∧ j < i + ts.length) ∨ (c ∈ new ∧ j < (succ c).length)
  | [], i, v, out, v', _, h => by
    simp only [visitEdges, Except.ok.injEq, Prod.mk.injEq] at h
    obtain ⟨rfl, rfl⟩ := h
    refine ⟨[], .nil v, by simp, ?_⟩
    intro c j
    simp only [List.not_mem_nil, List.length_nil, false_and, or_false, false_iff]
    omega
  | t :: ts, i, v, out, v', hb, h => by
    simp only [visitEdges] at h
    cases ht : f t v with
    | error x => simp [ht] at h
    | ok p =>
      obtain ⟨o1, v1⟩ := p
      obtain ⟨n1, hv1, hnd1, hm1⟩ := hf t v o1 v1 ht
      have hb1 : b ∈ v1 := (hv1.mem b).2 (.inl hb)
      cases hts : visitEdges f b (i + 1) ts v1 with
      | error x => simp [ht, hts] at h
      | ok p =>
        obtain ⟨o2, v2⟩ := p
        simp only [ht, hts, Except.ok.injEq, Prod.mk.injEq] at h
        obtain ⟨rfl, rfl⟩ := h
        obtain ⟨n2, hv2, hnd2, hm2⟩ := visitEdges_spec hf b ts (i + 1) v1 o2 v2 hb1 hts
        have hbn1 : b ∉ n1 := fun h => hv1.fresh b h hb
        have hbn2 : b ∉ n2 := fun h => hv2.fresh b h hb1
        refine ⟨n1 ++ n2, hv1.append hv2, ?_, ?_⟩
        · rw [List.cons_append, List.nodup_cons]
          refine ⟨?_, ?_⟩
          · rw [List.mem_append, hm1, hm2]
            rintro (h | h | h)
            · exact hbn1 h.1
            · omega
            · exact hbn2 h.1
          · rw [List.nodup_append]
            refine ⟨hnd1, hnd2, ?_⟩
            rintro ⟨c, j⟩ h1 e h2 rfl
            rw [hm1] at h1
            rw [hm2] at h2
            rcases h2 with h2 | h2
            · exact hbn1 (h2.1 ▸ h1.1)
            · exact hv2.fresh c h2.1 ((hv1.mem c).2 (.inr h1.1))
        · intro c j
          rw [List.cons_append, List.mem_cons, List.mem_append, hm1, hm2, List.mem_append, Prod.mk.injEq, List.length_cons]
          constructor
          · rintro (⟨rfl, rfl⟩ | ⟨h, h'⟩ | ⟨rfl, h, h'⟩ | ⟨h, h'⟩)
            · exact .inl ⟨rfl, by omega, by omega⟩
            · exact .inr ⟨.inl h, h'⟩
            · exact .inl ⟨rfl, by omega, by omega⟩
            · exact .inr ⟨.inr h, h'⟩
          · rintro (⟨rfl, h, h'⟩ | ⟨h | h, h'⟩)
            · by_cases hij : j = i
              · exact .inl ⟨rfl, hij⟩
              · exact .inr (.inr (.inl ⟨rfl, by omega, by omega⟩))
            · exact .inr (.inl ⟨h, h'⟩)
            · exact .inr (.inr (.inr ⟨h, h'⟩))

theorem edgesFrom_spec : ∀ (limit b : Nat) (v : List Nat) (out : List (Nat × Nat)) (v' : List Nat),
    edgesFrom succ limit b v = .ok (out, v') → ∃ new, Visits succ [b] v new v' ∧ EdgesOf succ new out
  | 0, _, _, _, _, h => by simp [edgesFrom] at h
  | limit + 1, b, v, out, v', h => by
    simp only [edgesFrom] at h
    split at h
    · rename_i hb
      simp only [Except.ok.injEq, Prod.mk.injEq] at h
      obtain ⟨rfl, rfl⟩ := h
      exact ⟨[], .skip hb, by simp [EdgesOf]⟩
    · rename_i hb
      obtain ⟨new, hv, hnd, hm⟩ := visitEdges_spec (edgesFrom_spec limit) b _ _ _ _ _ (by simp) h
      refine ⟨new ++ [b], .block hb hv, hnd, ?_⟩
      intro c j
      rw [hm, List.mem_append, List.mem_singleton]
      constructor
      · rintro (⟨rfl, _, h⟩ | ⟨h, h'⟩)
        · exact ⟨.inr rfl, by omega⟩
        · exact ⟨.inl h, h'⟩
      · rintro ⟨h | rfl, h'⟩
        · exact .inr ⟨h, h'⟩
        · exact .inl ⟨rfl, by omega, by omega⟩

/-- C29, `get_edges`: unless the recursion is too deep, exactly the edges that leave reachable blocks are yielded,
each once. -/
theorem C29_edges {limit start : Nat} {out : List (Nat × Nat)} (h : edges succ limit start = .ok out) :
    out.Nodup ∧ ∀ b i, (b, i) ∈ out ↔ Reach succ start b ∧ i < (succ b).length := by
  unfold edges at h
  cases hp : edgesFrom succ limit start [] with
  | error x => simp [hp] at h
  | ok p =>
    obtain ⟨o, w⟩ := p
    simp only [hp, Except.ok.injEq] at h
    subst h
    obtain ⟨new, hv, hnd, hm⟩ := edgesFrom_spec limit start [] o w hp
    refine ⟨hnd, fun b i => ?_⟩
    rw [hm, hv.all]

theorem visitEdges_ok {f : Nat → List Nat → Except PyErr (List (Nat × Nat) × List Nat)} {nodes : List Nat} {k : Nat}
    (hf : ∀ b v out v', f b v = .ok (out, v') → ∃ new, Visits succ [b] v new v' ∧ EdgesOf succ new out)
    (hok : ∀ b v, b ∈ nodes → (nodes.filter (· ∉ v)).length < k → ∃ r, f b v = .ok r) (b : Nat) :
    ∀ (ts : List Nat) (i : Nat) (v : List Nat), (∀ t ∈ ts, t ∈ nodes) → (nodes.filter (· ∉ v)).length < k →
    ∃ r, visitEdges f b i ts v = .ok r
  | [], _, v, _, _ => ⟨_, rfl⟩
  | t :: ts, i, v, hts, hk => by
    obtain ⟨⟨o, w⟩, hr⟩ := hok t v (hts t (by simp)) hk
    obtain ⟨new, hv, _⟩ := hf t v o w hr
    have hsub : ∀ x ∈ v, x ∈ w := fun x hx => (hv.mem x).2 (.inl hx)
    obtain ⟨⟨o', w'⟩, hr'⟩ := visitEdges_ok hf hok b ts (i + 1) w (fun c hc => hts c (by simp [hc]))
      (Nat.lt_of_le_of_lt (filter_length_le nodes v w hsub) hk)
    exact ⟨((b, i) :: o ++ o', w'), by simp [visitEdges, hr, hr']⟩

theorem edgesFrom_ok {nodes : List Nat} (hclosed : ∀ b ∈ nodes, ∀ c ∈ succ b, c ∈ nodes) : ∀ (limit b : Nat) (v : List Nat),
    b ∈ nodes → (nodes.filter (· ∉ v)).length < limit → ∃ r, edgesFrom succ limit b v = .ok r
  | 0, _, _, _, h => by omega
  | limit + 1, b, v, hb, hk => by
    simp only [edgesFrom]
    split
    · exact ⟨_, rfl⟩
    · rename_i hv
      have hlt := filter_length_lt hv hb
      exact visitEdges_ok (edgesFrom_spec limit) (edgesFrom_ok hclosed limit) b (succ b) 0 (b :: v)
        (hclosed b hb) (by omega)

/-- C29: a graph with fewer blocks than the recursion limit has its edges enumerated. -/
theorem C29_edges_terminates {limit start : Nat} {nodes : List Nat}
    (hclosed : ∀ b ∈ nodes, ∀ c ∈ succ b, c ∈ nodes) (hstart : start ∈ nodes) (hlimit : nodes.length < limit) :
    ∃ out, edges succ limit start = .ok out := by
  obtain ⟨⟨o, w⟩, hr⟩ := edgesFrom_ok hclosed limit start [] hstart
    (Nat.lt_of_le_of_lt (List.length_filter_le _ _) hlimit)
  exact ⟨o, by simp [edges, hr]⟩

/-! ### `update_block_reachability` -/

theorem update_spec : ∀ (blocks : List Nat) (f : Flags) (b : Nat),
    (b ∈ (f.update blocks).reachable ↔ b ∈ f.reachable ∨ b ∈ blocks) ∧
    (b ∈ (f.update blocks).unreachable ↔ b ∈ f.unreachable ∧ b ∉ blocks)
  | [], f, b => by simp [Flags.update]
  | c :: blocks, f, b => by
    have ih := update_spec blocks
      ⟨c :: f.reachable, if c ∈ f.unreachable then f.unreachable.filter (· ≠ c) else f.unreachable⟩ b
    have hstep : f.update (c :: blocks) = Flags.update
      ⟨c :: f.reachable, if c ∈ f.unreachable then f.unreachable.filter (· ≠ c) else f.unreachable⟩ blocks := rfl
    rw [hstep, ih.1, ih.2]
    refine ⟨?_, ?_⟩
    · simp only [List.mem_cons]
      constructor
      · rintro ((h | h) | h)
        · exact .inr (.inl h)
        · exact .inl h
        · exact .inr (.inr h)
      · rintro (h | h | h)
        · exact .inl (.inr h)
        · exact .inl (.inl h)
        · exact .inr h
    · by_cases hc : c ∈ f.unreachable
      · simp only [hc, if_true, List.mem_filter, decide_eq_true_eq, List.mem_cons, not_or, and_assoc, ne_eq]
      · simp only [hc, if_false, List.mem_cons, not_or]
        constructor
        · rintro ⟨h, h'⟩
          exact ⟨h, fun heq => hc (heq ▸ h), h'⟩
        · rintro ⟨h, _, h'⟩
          exact ⟨h, h'⟩

/-- C29, `update_block_reachability`: on a graph none of whose blocks is marked, exactly the blocks reachable from
the start get marked, and exactly those leave `unreachable_blocks`. -/
theorem C29_reachable {start : Nat} {blocks : List Nat} (h : Yields succ start blocks) (unreachable : List Nat) (b : Nat) :
    (b ∈ ((Flags.mk [] unreachable).update blocks).reachable ↔ Reach succ start b) ∧
    (b ∈ ((Flags.mk [] unreachable).update blocks).unreachable ↔ b ∈ unreachable ∧ ¬Reach succ start b) := by
  have := update_spec blocks ⟨[], unreachable⟩ b
  rw [(C29_blocks h).2] at this
  simpa using this

/-! A loop with a block that nothing leads to: 0 → 1, 2; 1 → 0; 2 → 2; 3 → 2. -/

def loopGraph : Nat → List Nat
  | 0 => [1, 2]
  | 1 => [0]
  | 2 => [2]
  | 3 => [2]
  | _ => []

example : Yields loopGraph 0 [0, 1, 2] := ⟨7, by decide, by decide⟩
example : postorder loopGraph 10 0 = .ok [1, 2, 0] := by decide
example : postorder loopGraph 2 0 = .error .recursionError := by decide
example : edges loopGraph 10 0 = .ok [(0, 0), (1, 0), (0, 1), (2, 0)] := by decide
example : ((Flags.mk [] [1, 3]).update [0, 1, 2]).unreachable = [3] := by decide

end Verif.Cfg
