import Verif.Model.SeqIfs

/-!
C133: `if`s whose conditions can be joined by `or`.
-/

namespace Verif.SeqIfs

/-! ### What `if`s do -/

/-- A condition, which may change the state. -/
abbrev Cond (σ : Type) := σ → Bool × σ

/-- The state after a body, and whether the block is left, as by `return`. -/
abbrev Body (σ : Type) := σ → σ × Bool

/-- `a or b` -/
def or_ (a b : Cond σ) : Cond σ := fun s => if (a s).1 then a s else b (a s).2

/-- Conditions joined by `or`. -/
def orAll : List (Cond σ) → Cond σ
  | [] => fun s => (false, s)
  | [c] => c
  | c :: cs => or_ c (orAll cs)

/-- What an `if` with its `elif`s does. -/
def execChain : List (Cond σ × Body σ) → Body σ
  | [], s => (s, false)
  | (c, b) :: rest, s => if (c s).1 then b (c s).2 else execChain rest (c s).2

/-- What `if`s after each other do. -/
def execSeq : List (List (Cond σ × Body σ)) → Body σ
  | [], s => (s, false)
  | c :: rest, s => if (execChain c s).2 then execChain c s else execSeq rest (execChain c s).1

theorem orAll_cons (c : Cond σ) (cs : List (Cond σ)) (hne : cs ≠ []) : orAll (c :: cs) = or_ c (orAll cs) := by
  cases cs with
  | nil => exact absurd rfl hne
  | cons d cs => rfl

theorem execChain_or (B : Body σ) (post : List (Cond σ × Body σ)) : ∀ (cs : List (Cond σ)) (s : σ), cs ≠ [] →
    execChain ((orAll cs, B) :: post) s = execChain (cs.map (fun c => (c, B)) ++ post) s
  | [], _, h => absurd rfl h
  | [c], s, _ => rfl
  | c :: d :: cs, s, _ => by
    have ih := execChain_or B post (d :: cs) (c s).2 (by simp)
    rw [execChain, orAll_cons _ _ (by simp)]
    rw [execChain] at ih
    rw [List.map_cons, List.cons_append, execChain, ← ih]
    simp only [or_]
    by_cases h : (c s).1 = true <;> simp [h]

theorem execChain_append (pre : List (Cond σ × Body σ)) {a b : List (Cond σ × Body σ)} (h : ∀ s, execChain a s = execChain b s) (s : σ) :
    execChain (pre ++ a) s = execChain (pre ++ b) s := by
  induction pre generalizing s with
  | nil => exact h s
  | cons p pre ih =>
    obtain ⟨c, B⟩ := p
    rw [List.cons_append, List.cons_append, execChain, execChain, ih]

/-- C133: Joining the conditions of branches of the same `if` that follow each other and have the same bodies changes nothing, even if the conditions have effects. -/
theorem C133_joined_partial (pre post : List (Cond σ × Body σ)) (B : Body σ) (cs : List (Cond σ)) (hne : cs ≠ []) (s : σ) :
    execChain (pre ++ cs.map (fun c => (c, B)) ++ post) s = execChain (pre ++ (orAll cs, B) :: post) s := by
  rw [List.append_assoc]
  exact (execChain_append pre (fun s => (execChain_or B post cs s hne)) s).symm

theorem execChain_exit {B : Body σ} (hB : ∀ s, (B s).2 = true) (rest : List (List (Cond σ × Body σ))) : ∀ (cs : List (Cond σ)) (s : σ),
    execSeq (cs.map (fun c => (c, B)) :: rest) s = execChain (cs.map (fun c => (c, B)) ++ [(fun s => (true, s), execSeq rest)]) s
  | [], s => by simp [execSeq, execChain]
  | c :: cs, s => by
    rw [execSeq, List.map_cons, List.cons_append, execChain, execChain]
    by_cases h : (c s).1
    · simp [h, hB]
    · have ih := execChain_exit hB rest cs (c s).2
      rw [execSeq] at ih
      simp only [h, Bool.false_eq_true, if_false]
      exact ih

/-- C133: Neither does joining the conditions of `if`s after each other, if their body always leaves the block. -/
theorem C133_exits_partial {B : Body σ} (hB : ∀ s, (B s).2 = true) : ∀ (chains : List (List (Cond σ))), (∀ cs ∈ chains, cs ≠ []) → chains ≠ [] → ∀ s,
    execSeq (chains.map fun cs => cs.map fun c => (c, B)) s = execSeq [[(orAll chains.flatten, B)]] s
  | [], _, h => absurd rfl h
  | [cs], hne, _ => fun s => by
    have hcs := hne cs (by simp)
    have h := execChain_or B [] cs s hcs
    rw [List.append_nil] at h
    simp only [List.map_cons, List.map_nil, List.flatten_cons, List.flatten_nil, List.append_nil, execSeq, h]
  | cs :: ds :: rest, hne, _ => fun s => by
    have hcs := hne cs (by simp)
    have ih := C133_exits_partial hB (ds :: rest) (fun c hc => hne c (List.mem_cons_of_mem _ hc)) (by simp)
    have hflat : ds ++ rest.flatten ≠ [] := by simp [hne ds (by simp)]
    rw [List.map_cons, execChain_exit hB]
    have e1 : execChain (cs.map (fun c => (c, B)) ++ [(fun s => (true, s), execSeq ((ds :: rest).map fun cs => cs.map fun c => (c, B)))]) s =
        execChain (cs.map (fun c => (c, B)) ++ [(orAll (ds :: rest).flatten, B)]) s := by
      refine execChain_append _ (fun s => ?_) s
      rw [execChain, if_pos rfl, ih, execSeq]
      by_cases h : (execChain [(orAll (ds :: rest).flatten, B)] s).2
      · rw [if_pos h]
      · rw [if_neg h, execSeq]
        exact Prod.ext rfl (by simpa using (Bool.not_eq_true _ ▸ h : _ = false).symm)
    have e2 : execChain (cs.map (fun c => (c, B)) ++ [(orAll (ds :: rest).flatten, B)]) s = execChain [(orAll (cs :: ds :: rest).flatten, B)] s := by
      rw [execChain_or B [] _ s (by simp [hcs]), List.append_nil, List.flatten_cons, List.flatten_cons, List.map_append]
      refine execChain_append _ (fun s => ?_) s
      rw [execChain_or B [] _ s hflat, List.append_nil, List.flatten_cons]
    rw [e1, e2, execSeq]
    by_cases h : (execChain [(orAll (cs :: ds :: rest).flatten, B)] s).2
    · rw [if_pos h]
    · rw [if_neg h, execSeq]
      exact Prod.ext rfl (by simpa using h)

/-! ### What is reported -/

variable {C B : Type} [DecidableEq B]

theorem takeWhile_drop {α : Type} (p : α → Bool) : ∀ (l : List α), l.takeWhile p ++ l.drop (l.takeWhile p).length = l
  | [] => rfl
  | a :: l => by
    rw [List.takeWhile_cons]
    split
    · simpa using takeWhile_drop p l
    · rfl

theorem mem_takeWhile_true {α : Type} {p : α → Bool} {x : α} : ∀ {l : List α}, x ∈ l.takeWhile p → p x = true
  | [], h => by simp at h
  | a :: l, h => by
    rw [List.takeWhile_cons] at h
    split at h
    · rcases List.mem_cons.1 h with rfl | h
      · assumption
      · exact mem_takeWhile_true h
    · simp at h

theorem runs_flatten : ∀ (limit : Nat) (l : List (Branch C B)), l.length ≤ limit → (runs limit l).flatten = l
  | 0, l, h => by
    have : l = [] := List.eq_nil_of_length_eq_zero (by omega)
    subst this
    rfl
  | limit + 1, [], _ => rfl
  | limit + 1, b :: rest, h => by
    rw [runs, List.flatten_cons, runs_flatten limit _ (by simp at h ⊢; omega), List.cons_append, same, takeWhile_drop]

theorem runs_same : ∀ (limit : Nat) (l : List (Branch C B)), ∀ r ∈ runs limit l, ∃ b rest, r = b :: rest ∧ ∀ x ∈ rest, x.body = b.body ∧
    (b.pos = 0 ∨ b.chain = x.chain)
  | 0, _, _, h => by simp [runs] at h
  | limit + 1, [], _, h => by simp [runs] at h
  | limit + 1, b :: rest, r, h => by
    rw [runs] at h
    rcases List.mem_cons.1 h with rfl | h
    · refine ⟨b, _, rfl, fun x hx => ?_⟩
      have := mem_takeWhile_true hx
      simpa [below, and_comm] using this
    · exact runs_same limit _ r h

/-- C133: For each message, the branches follow each other, are two at least, and have the same bodies; they are of the same `if`, or start with an `if`. -/
theorem C133_reported (prev : Option (Stmt C B)) (c : Chain C B) (rest : List (Stmt C B)) {r : List (Branch C B)} (h : r ∈ duplicateSeqIfs prev c rest) :
    r <:+: number 0 c ++ siblings 1 rest ∧ r.length ≥ 2 ∧ ∃ b bs, r = b :: bs ∧ ∀ x ∈ bs, x.body = b.body ∧ (b.pos = 0 ∨ b.chain = x.chain) := by
  unfold duplicateSeqIfs at h
  rw [List.mem_filter] at h
  obtain ⟨h, hl⟩ := h
  refine ⟨?_, of_decide_eq_true hl, runs_same _ _ r h⟩
  have hin : r <:+: seqIfs prev c rest := by
    have hf := runs_flatten _ (seqIfs prev c rest) (Nat.le_refl _)
    generalize runs (seqIfs prev c rest).length (seqIfs prev c rest) = rs at h hf
    rw [← hf]
    obtain ⟨p, q, rfl⟩ := List.append_of_mem h
    exact ⟨p.flatten, q.flatten, by simp⟩
  have hsub : seqIfs prev c rest <:+: number 0 c ++ siblings 1 rest := by
    unfold seqIfs
    split <;> split <;> first | exact List.nil_infix | exact List.infix_refl _
  exact hin.trans hsub

omit [DecidableEq B] in
theorem number_lt (k : Nat) (c : Chain C B) : (number k c).Pairwise fun a b => a.chain = b.chain ∧ a.pos < b.pos := by
  unfold number
  rw [List.pairwise_map]
  have : ∀ (l : List (C × B)) (i : Nat), (l.zipIdx i).Pairwise fun p q => p.2 < q.2 := by
    intro l
    induction l with
    | nil => intro i; exact List.Pairwise.nil
    | cons x l ih =>
      intro i
      rw [List.zipIdx_cons]
      refine List.Pairwise.cons ?_ (ih _)
      intro p hp
      have := List.le_snd_of_mem_zipIdx hp
      show i < p.2
      omega
  exact (this _ 0).imp fun h => ⟨rfl, h⟩

omit [DecidableEq B] in
theorem siblings_ge : ∀ (k : Nat) (l : List (Stmt C B)), ∀ b ∈ siblings k l, k ≤ b.chain
  | k, [], b, h => by simp [siblings] at h
  | k, .other _ :: _, b, h => by simp [siblings] at h
  | k, .chain c :: rest, b, h => by
    rw [siblings] at h
    split at h
    · simp at h
    · rcases List.mem_append.1 h with h | h
      · rw [number, List.mem_map] at h
        obtain ⟨p, _, rfl⟩ := h
        exact Nat.le_refl _
      · have := siblings_ge (k + 1) rest b h
        omega

/-- The order of the branches. -/
def Ordered (l : List (Branch C B)) : Prop := l.Pairwise fun a b => a.chain < b.chain ∨ (a.chain = b.chain ∧ a.pos < b.pos)

omit [DecidableEq B] in
theorem siblings_ordered : ∀ (k : Nat) (l : List (Stmt C B)), Ordered (siblings k l)
  | k, [] => by simp [siblings, Ordered]
  | k, .other _ :: _ => by simp [siblings, Ordered]
  | k, .chain c :: rest => by
    rw [siblings]
    split
    · exact List.Pairwise.nil
    · refine List.pairwise_append.2 ⟨(number_lt k c).imp .inr, siblings_ordered (k + 1) rest, fun a ha b hb => .inl ?_⟩
      rw [number, List.mem_map] at ha
      obtain ⟨p, _, rfl⟩ := ha
      have := siblings_ge (k + 1) rest b hb
      show k < b.chain
      omega

omit [DecidableEq B] in
theorem seqIfs_ordered (c : Chain C B) (rest : List (Stmt C B)) : Ordered (number 0 c ++ siblings 1 rest) := by
  refine List.pairwise_append.2 ⟨(number_lt 0 c).imp .inr, siblings_ordered 1 rest, fun a ha b hb => .inl ?_⟩
  rw [number, List.mem_map] at ha
  obtain ⟨p, _, rfl⟩ := ha
  have := siblings_ge 1 rest b hb
  show 0 < b.chain
  omega

theorem takeWhile_next {α : Type} {p : α → Bool} : ∀ {l pre post : List α} {x y : α}, l = pre ++ x :: y :: post → (∀ z ∈ pre, p z = true) → p x = true → p y = true →
    ∃ q, l.takeWhile p = pre ++ x :: y :: q
  | _, [], post, x, y, rfl, _, hx, hy => ⟨post.takeWhile p, by simp [hx, hy]⟩
  | _, a :: pre, post, x, y, rfl, hp, hx, hy => by
    obtain ⟨q, hq⟩ := takeWhile_next (l := pre ++ x :: y :: post) rfl (fun z hz => hp z (List.mem_cons_of_mem _ hz)) hx hy
    exact ⟨q, by rw [List.cons_append, List.takeWhile_cons, hp a (by simp)]; simp [hq]⟩

/-- Neighbours that may be joined are in one run. -/
theorem runs_found : ∀ (limit : Nat) (l pre post : List (Branch C B)) (x y : Branch C B), Ordered l → l.length ≤ limit → l = pre ++ x :: y :: post →
    x.body = y.body → (x.pos = 0 ∨ x.chain = y.chain) → ∃ r ∈ runs limit l, ∃ p q, r = p ++ x :: y :: q
  | 0, l, pre, post, x, y, _, hl, he, _, _ => by
    rw [he] at hl
    simp at hl
  | limit + 1, [], pre, post, x, y, _, _, he, _, _ => by simp at he
  | limit + 1, b :: rest, pre, post, x, y, ho, hl, he, hb, hj => by
    rw [runs]
    cases pre with
    | nil =>
      simp only [List.nil_append, List.cons.injEq] at he
      obtain ⟨rfl, rfl⟩ := he
      refine ⟨_, List.mem_cons_self, [], ?_⟩
      have : (below b y && decide (y.body = b.body)) = true := by
        simpa [below, hb] using hj
      rw [same, List.takeWhile_cons, this]
      exact ⟨_, rfl⟩
    | cons a pre =>
      simp only [List.cons_append, List.cons.injEq] at he
      obtain ⟨rfl, he⟩ := he
      have ho' := List.pairwise_cons.1 ho
      by_cases hlen : pre.length < (same b rest).length
      · -- `x` is in the run of `b`
        have hxs : x ∈ same b rest := by
          have h1 : (same b rest)[pre.length]? = some x := by
            have hpre : same b rest <+: rest := List.takeWhile_prefix _
            obtain ⟨t, ht⟩ := hpre
            have h2 : rest[pre.length]? = some x := by rw [he]; simp
            rw [← ht, List.getElem?_append_left hlen] at h2
            exact h2
          exact List.mem_of_getElem? h1
        have hx := mem_takeWhile_true hxs
        have hpre' : ∀ z ∈ pre, (below b z && decide (z.body = b.body)) = true := by
          intro z hz
          obtain ⟨i, hi⟩ := List.mem_iff_getElem?.1 hz
          have hi' := (List.getElem?_eq_some_iff.1 hi).1
          have h1 : (same b rest)[i]? = some z := by
            obtain ⟨t, ht⟩ : same b rest <+: rest := List.takeWhile_prefix _
            have h2 : rest[i]? = some z := by rw [he, List.getElem?_append_left hi', hi]
            rw [← ht, List.getElem?_append_left (by omega)] at h2
            exact h2
          exact mem_takeWhile_true (p := fun z => below b z && decide (z.body = b.body)) (List.mem_of_getElem? h1)
        have hy : (below b y && decide (y.body = b.body)) = true := by
          simp only [Bool.and_eq_true, decide_eq_true_eq, below, Bool.or_eq_true, beq_iff_eq] at hx ⊢
          refine ⟨?_, by rw [← hb, hx.2]⟩
          rcases hx.1 with h | h
          · exact .inl h
          · rcases hj with hj | hj
            · have hxr : x ∈ rest := by rw [he]; simp
              rcases ho'.1 x hxr with h1 | h1 <;> omega
            · exact .inr (h.trans hj)
        obtain ⟨q, hq⟩ := takeWhile_next he hpre' hx hy
        exact ⟨_, List.mem_cons_self, b :: pre, q, by rw [same, hq]; rfl⟩
      · have hle : (same b rest).length ≤ pre.length := by omega
        have hd : rest.drop (same b rest).length = pre.drop (same b rest).length ++ x :: y :: post := by
          rw [← List.drop_append_of_le_length hle, ← he]
        obtain ⟨r, hr, p, q, hrq⟩ := runs_found limit _ _ post x y (List.Pairwise.drop ho'.2) (by simp at hl ⊢; omega) hd hb hj
        exact ⟨r, List.mem_cons_of_mem _ hr, p, q, hrq⟩

/-- C133: All branches that follow each other and have the same bodies are reported, and with one message, if they are of the same `if` or the first one is an `if`;
but for where there is an `else`. -/
theorem C133_found (prev : Option (Stmt C B)) (c : Chain C B) (rest : List (Stmt C B)) (hprev : ∀ p, prev = some (.chain p) → p.hasElse = true)
    (hc : c.hasElse = false) {pre post : List (Branch C B)} {x y : Branch C B} (h : number 0 c ++ siblings 1 rest = pre ++ x :: y :: post) (hb : x.body = y.body)
    (hj : x.pos = 0 ∨ x.chain = y.chain) : ∃ r ∈ duplicateSeqIfs prev c rest, ∃ p q, r = p ++ x :: y :: q := by
  have hs : seqIfs prev c rest = number 0 c ++ siblings 1 rest := by
    unfold seqIfs
    split
    · rename_i p
      simp [hprev p rfl, hc]
    · simp [hc]
  obtain ⟨r, hr, p, q, hrq⟩ := runs_found _ _ pre post x y (seqIfs_ordered c rest) (Nat.le_refl _) h hb hj
  refine ⟨r, ?_, p, q, hrq⟩
  unfold duplicateSeqIfs
  rw [hs, List.mem_filter]
  refine ⟨hr, ?_⟩
  rw [hrq]
  simp
  omega

/-! ### Examples -/

/-- A state is a number; the condition is true of numbers less than `n`. -/
def lt (n : Nat) : Cond Nat := fun s => (decide (s < n), s)

/-- `n += 1` -/
def inc : Body Nat := fun s => (s + 1, false)

/-- The conditions and bodies of the branches that a message is about, with bodies given by numbers. -/
def shape {C B : Type} (rs : List (List (Branch C B))) : List (List (Nat × Nat × C × B)) := rs.map fun r => r.map fun b => (b.chain, b.pos, b.cond, b.body)

/-- C133: `if`s after each other are reported although both may be executed: for `if n < 1: n += 1` and `if n < 2: n += 1`, `n` is not the same as for
`if n < 1 or n < 2: n += 1`. -/
theorem C133_siblings_counterexample :
    shape (duplicateSeqIfs none ⟨[(1, "n += 1")], false⟩ [.chain ⟨[(2, "n += 1")], false⟩]) = [[(0, 0, 1, "n += 1"), (1, 0, 2, "n += 1")]] ∧
      execSeq [[(lt 1, inc)], [(lt 2, inc)]] 0 ≠ execSeq [[(orAll [lt 1, lt 2], inc)]] 0 := by
  decide +kernel

/-- C133: Contrary to what the comment says, an `elif` and an `if` after it are reported together, if the run starts with an `if`:
`if n < 0: n += 1 elif n < 1: n += 1` and `if n < 2: n += 1`. -/
theorem C133_elif_counterexample :
    shape (duplicateSeqIfs none ⟨[(0, "n += 1"), (1, "n += 1")], false⟩ [.chain ⟨[(2, "n += 1")], false⟩]) =
      [[(0, 0, 0, "n += 1"), (0, 1, 1, "n += 1"), (1, 0, 2, "n += 1")]] ∧
      execSeq [[(lt 0, inc), (lt 1, inc)], [(lt 2, inc)]] 0 ≠ execSeq [[(orAll [lt 0, lt 1, lt 2], inc)]] 0 := by
  decide +kernel

/-- C133: Branches of an `if` with an `else` are not reported, though their conditions can be joined: `if n < 1: n += 1 elif n < 2: n += 1 else: …`. -/
theorem C133_else_counterexample : messages none [.chain (C := Nat) ⟨[(1, "n += 1"), (2, "n += 1")], true⟩] = [] ∧
    ∀ (e : Body Nat) (s : Nat), execChain [(lt 1, inc), (lt 2, inc), (fun s => (true, s), e)] s =
      execChain [(orAll [lt 1, lt 2], inc), (fun s => (true, s), e)] s :=
  ⟨rfl, fun e s => C133_joined_partial [] [(fun s => (true, s), e)] inc [lt 1, lt 2] (by simp) s⟩

/-- Where an `elif` is the first one, it is not reported with an `if`. -/
example : messages none [.chain ⟨[(0, "m = 1"), (1, "n += 1")], false⟩, .chain ⟨[(2, "n += 1")], false⟩] = [] := rfl

/-- Two messages: one for the first two branches, one for the other ones; the second `if` is not looked at again. -/
example : shape (messages none [.other 0, .chain ⟨[(0, "a"), (1, "a"), (2, "b")], false⟩, .chain ⟨[(3, "b")], false⟩, .chain ⟨[(4, "b")], false⟩, .other 1]) =
    [[(0, 0, 0, "a"), (0, 1, 1, "a")], [(1, 0, 3, "b"), (2, 0, 4, "b")]] := rfl

/-- After an `if` with an `else`, a new sequence starts. -/
example : shape (messages none [.chain ⟨[(0, "a")], true⟩, .chain ⟨[(1, "b")], false⟩, .chain ⟨[(2, "b")], false⟩]) = [[(0, 0, 1, "b"), (1, 0, 2, "b")]] := rfl

/-- `return` in both. -/
example (s : Nat) : execSeq [[(lt 1, fun s => (s, true))], [(lt 2, fun s => (s, true))]] s = execSeq [[(orAll [lt 1, lt 2], fun s => (s, true))]] s :=
  C133_exits_partial (B := fun s => (s, true)) (fun _ => rfl) [[lt 1], [lt 2]] (by simp) (by simp) s

end Verif.SeqIfs
