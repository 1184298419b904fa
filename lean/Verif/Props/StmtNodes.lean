import Verif.Model.StmtNodes
import Verif.Props.Candidates
import Verif.Props.TraverseFlow
import Mathlib.Data.List.Nodup
import Mathlib.Tactic.ByContra

/-!
**C154** The search for duplicate code looks at the statements of a program, at each once, in the order of the text.
-/

namespace Verif.StmtNodes

/-- Statements that are locations themselves. -/
def Stmt.leaf : Stmt → Bool
  | .simple _ | .jump _ _ | .whole _ _ => true
  | _ => false

mutual
/-- The nodes of a statement: those of the statements and of the locations in it, outside of `finally`, `match` and asynchronous statements. -/
def Stmt.nodes : Stmt → List Nat
  | .simple n => [n]
  | .jump _ n => [n]
  | .whole n _ => [n]
  | .cond n t b e => n :: t :: (b.nodes ++ e.nodes)
  | .loop n t b e => n :: t :: (b.nodes ++ e.nodes)
  | .each n i t b e => n :: i :: t :: (b.nodes ++ e.nodes)
  | .enter n i name items b => n :: i :: ((name.toList ++ items.flatMap itemNodes) ++ b.nodes)
  | .try_ n f r hs e _ => n :: (f.nodes ++ (r.nodes ++ (hs.nodes ++ e.nodes)))
def Body.nodes : Body → List Nat
  | .nil => []
  | .cons s rest => s.nodes ++ rest.nodes
def Handlers.nodes : Handlers → List Nat
  | .nil => []
  | .cons _ name b rest => name.toList ++ (b.nodes ++ rest.nodes)
end

mutual
/-- The statements in a statement, and itself, outside of `finally`, `match` and asynchronous statements. -/
def Stmt.all : Stmt → List Stmt
  | .simple n => [.simple n]
  | .jump j n => [.jump j n]
  | .whole n b => [.whole n b]
  | .cond n t b e => .cond n t b e :: (b.all ++ e.all)
  | .loop n t b e => .loop n t b e :: (b.all ++ e.all)
  | .each n i t b e => .each n i t b e :: (b.all ++ e.all)
  | .enter n i name items b => .enter n i name items b :: b.all
  | .try_ n f r hs e l => .try_ n f r hs e l :: (f.all ++ (r.all ++ (hs.all ++ e.all)))
def Body.all : Body → List Stmt
  | .nil => []
  | .cons s rest => s.all ++ rest.all
def Handlers.all : Handlers → List Stmt
  | .nil => []
  | .cons _ _ b rest => b.all ++ rest.all
end

mutual
/-- The names given to exceptions. -/
def Stmt.names : Stmt → List Nat
  | .simple _ | .jump _ _ | .whole _ _ => []
  | .cond _ _ b e => b.names ++ e.names
  | .loop _ _ b e => b.names ++ e.names
  | .each _ _ _ b e => b.names ++ e.names
  | .enter _ _ _ _ b => b.names
  | .try_ _ f r hs e _ => f.names ++ (r.names ++ (hs.names ++ e.names))
def Body.names : Body → List Nat
  | .nil => []
  | .cons s rest => s.names ++ rest.names
def Handlers.names : Handlers → List Nat
  | .nil => []
  | .cons _ name b rest => name.toList ++ (b.names ++ rest.names)
end

/-- The location that the execution of a statement begins with. -/
def Stmt.first : Stmt → Nat
  | .simple n => n
  | .jump _ n => n
  | .whole n _ => n
  | .cond _ t _ _ => t
  | .loop _ t _ _ => t
  | .each _ i _ _ _ => i
  | .enter _ i _ _ _ => i
  | .try_ _ f _ _ _ _ => f.first

/-- A `try` that does not begin with a simple statement. -/
def Stmt.tryCompound : Stmt → Bool
  | .try_ _ f _ _ _ _ => !f.leaf
  | _ => false

mutual
/-- What is listed, with the locations that it is listed for. -/
def Stmt.begins : Stmt → List (Nat × Nat)
  | .simple n => [(n, n)]
  | .jump _ n => [(n, n)]
  | .whole n _ => [(n, n)]
  | .cond n t b e => (n, t) :: (b.begins ++ e.begins)
  | .loop n t b e => (n, t) :: (b.begins ++ e.begins)
  | .each n i _ b e => (n, i) :: (b.begins ++ e.begins)
  | .enter n i _ _ b => (n, i) :: b.begins
  | .try_ n f r hs e _ => (f.begins ++ if f.leaf then [(n, f.id)] else []) ++ (r.begins ++ (hs.begins ++ e.begins))
def Body.begins : Body → List (Nat × Nat)
  | .nil => []
  | .cons s rest => s.begins ++ rest.begins
def Handlers.begins : Handlers → List (Nat × Nat)
  | .nil => []
  | .cons _ name b rest => name.toList.map (fun n => (n, n)) ++ (b.begins ++ rest.begins)
end

/-- What is listed for the locations that are reached. -/
def listed (R : Nat → Bool) (ps : List Place) : List Nat := (ps.filter fun l => R l.node).flatMap given

/-- What is to be listed. -/
def expected (R : Nat → Bool) (bs : List (Nat × Nat)) : List Nat := (bs.filter fun x => R x.2).map (·.1)

theorem listed_append (R : Nat → Bool) (as bs : List Place) : listed R (as ++ bs) = listed R as ++ listed R bs := by simp [listed]

theorem expected_append (R : Nat → Bool) (as bs : List (Nat × Nat)) : expected R (as ++ bs) = expected R as ++ expected R bs := by simp [expected]

theorem listed_cons (R : Nat → Bool) (a : Place) (as : List Place) : listed R (a :: as) = (if R a.node then given a else []) ++ listed R as := by
  unfold listed
  by_cases h : R a.node = true <;> simp [h]

theorem expected_cons (R : Nat → Bool) (a : Nat × Nat) (as : List (Nat × Nat)) :
    expected R (a :: as) = (if R a.2 then [a.1] else []) ++ expected R as := by
  unfold expected
  by_cases h : R a.2 = true <;> simp [h]

theorem listed_nothing (R : Nat → Bool) : ∀ ps : List Place, (∀ l ∈ ps, given l = []) → listed R ps = []
  | [], _ => rfl
  | l :: ps, h => by
    rw [listed_cons, h l (by simp), listed_nothing R ps fun l hl => h l (by simp [hl])]
    simp

/-- A statement is listed for itself in a body of the parent. -/
def Plain (par : Parent) (n : Nat) : Prop := given ⟨n, false, par⟩ = [n]

theorem plain_cond {n t m : Nat} (h : m ≠ t) : Plain (.cond n t) m := by simp [Plain, given, stmtLocs, h]
theorem plain_for {n i t m : Nat} (h : m ≠ t) (h' : m ≠ i) : Plain (.for_ n i t) m := by simp [Plain, given, stmtLocs, h, h']
theorem plain_try {n f m : Nat} (h : m ≠ f) : Plain (.try_ n f) m := by simp [Plain, given, stmtLocs, h]
theorem plain_other {m : Nat} : Plain .other m := by simp [Plain, given, stmtLocs]
theorem plain_with {n i m : Nat} {name : Option Nat} {items : List (Nat × Option Nat)} (h : m ≠ i)
    (h' : m ∉ name.toList ++ items.flatMap itemNodes) : Plain (.with_ n ((i, name) :: items)) m := by
  have : m ∉ ((i, name) :: items).flatMap itemNodes := by
    simp only [List.flatMap_cons, itemNodes, List.cons_append, List.mem_cons, not_or]
    exact ⟨h, h'⟩
  simp only [Plain, given, stmtLocs, h, this, if_false]
  simp

theorem id_mem (s : Stmt) : s.id ∈ s.nodes := by
  cases s <;> simp [Stmt.id, Stmt.nodes]

theorem leaf_places {s : Stmt} (h : s.leaf = true) (par : Parent) : s.places par = [⟨s.id, false, par⟩] ∧ s.begins = [(s.id, s.id)] := by
  cases s <;> simp [Stmt.leaf] at h <;> simp [Stmt.places, Stmt.begins, Stmt.id]

mutual
theorem stmt_listed (R : Nat → Bool) (par : Parent) : ∀ s : Stmt, s.nodes.Nodup → (s.leaf = true → Plain par s.id) →
    listed R (s.places par) = expected R s.begins
  | .simple n, _, hp | .jump _ n, _, hp | .whole n _, _, hp => by
    have := hp rfl
    simp only [Plain, Stmt.id] at this
    simp only [Stmt.places, Stmt.begins, listed_cons, expected_cons, this]
    simp [listed, expected]
  | .cond n t b e, hd, _ | .loop n t b e, hd, _ => by
    simp only [Stmt.nodes, List.nodup_cons, List.nodup_append, List.mem_cons, List.mem_append, not_or] at hd
    obtain ⟨-, ⟨ht1, ht2⟩, hb, he, -⟩ := hd
    simp only [Stmt.places, Stmt.begins, listed_cons, expected_cons, listed_append, expected_append,
      body_listed R (.cond n t) b hb fun m hm => plain_cond fun h => ht1 (h ▸ hm),
      body_listed R (.cond n t) e he fun m hm => plain_cond fun h => ht2 (h ▸ hm)]
    simp [given, stmtLocs]
  | .each n i t b e, hd, _ => by
    simp only [Stmt.nodes, List.nodup_cons, List.nodup_append, List.mem_cons, List.mem_append, not_or] at hd
    obtain ⟨-, ⟨hit, hi1, hi2⟩, ⟨ht1, ht2⟩, hb, he, -⟩ := hd
    simp only [Stmt.places, Stmt.begins, listed_cons, expected_cons, listed_append, expected_append,
      body_listed R (.for_ n i t) b hb fun m hm => plain_for (fun h => ht1 (h ▸ hm)) (fun h => hi1 (h ▸ hm)),
      body_listed R (.for_ n i t) e he fun m hm => plain_for (fun h => ht2 (h ▸ hm)) (fun h => hi2 (h ▸ hm))]
    simp [given, stmtLocs, hit]
  | .enter n i name items b, hd, _ => by
    simp only [Stmt.nodes] at hd
    obtain ⟨-, hd⟩ := List.nodup_cons.1 hd
    obtain ⟨hi, hd⟩ := List.nodup_cons.1 hd
    obtain ⟨-, hb, hdis⟩ := List.nodup_append.1 hd
    have hin : ∀ m ∈ name.toList ++ items.flatMap itemNodes, m ≠ i := by
      rintro m hm rfl
      exact hi (List.mem_append_left _ hm)
    have hnone : listed R ((name.toList ++ items.flatMap itemNodes).map fun x => ⟨x, false, .with_ n ((i, name) :: items)⟩) = [] := by
      apply listed_nothing
      intro l hl
      obtain ⟨m, hm, rfl⟩ := List.mem_map.1 hl
      have : m ∈ ((i, name) :: items).flatMap itemNodes := by
        simp only [List.flatMap_cons, itemNodes, List.cons_append, List.mem_cons]
        exact .inr hm
      simp only [given, stmtLocs, hin m hm, this, if_false, if_true]
      simp
    simp only [Stmt.places, Stmt.begins, listed_cons, expected_cons, listed_append, expected_append, hnone,
      body_listed R (.with_ n ((i, name) :: items)) b hb fun m hm => plain_with (fun h => hi (List.mem_append_right _ (h ▸ hm)))
        (fun h => hdis m h m hm rfl)]
    simp [given, stmtLocs]
  | .try_ n f r hs e l, hd, _ => by
    simp only [Stmt.nodes] at hd
    obtain ⟨-, hd⟩ := List.nodup_cons.1 hd
    obtain ⟨hf, hd, h1⟩ := List.nodup_append.1 hd
    obtain ⟨hr, hd, -⟩ := List.nodup_append.1 hd
    obtain ⟨hh, he, -⟩ := List.nodup_append.1 hd
    have hfirst : listed R (f.places (.try_ n f.id)) = expected R (f.begins ++ if f.leaf then [(n, f.id)] else []) := by
      by_cases hl : f.leaf = true
      · rw [(leaf_places hl _).1, (leaf_places hl (.try_ n f.id)).2]
        simp only [hl, if_true, listed_cons, expected_cons, List.cons_append, List.nil_append]
        by_cases hR : R f.id = true <;> simp [hR, given, stmtLocs, listed, expected]
      · have := stmt_listed R (.try_ n f.id) f hf fun h => absurd h hl
        rw [this]
        simp [hl]
    simp only [Stmt.places, Stmt.begins, listed_append, expected_append] at hfirst ⊢
    rw [hfirst, handlers_listed R hs hh,
      body_listed R (.try_ n f.id) r hr fun m hm => plain_try fun h => h1 f.id (id_mem f) m (by simp [hm]) h.symm,
      body_listed R (.try_ n f.id) e he fun m hm => plain_try fun h => h1 f.id (id_mem f) m (by simp [hm]) h.symm]
theorem body_listed (R : Nat → Bool) (par : Parent) : ∀ b : Body, b.nodes.Nodup → (∀ m ∈ b.nodes, Plain par m) →
    listed R (b.places par) = expected R b.begins
  | .nil, _, _ => rfl
  | .cons s rest, hd, hp => by
    simp only [Body.nodes] at hd hp
    obtain ⟨h1, h2, -⟩ := List.nodup_append.1 hd
    simp only [Body.places, Body.begins, listed_append, expected_append,
      stmt_listed R par s h1 (fun _ => hp _ (List.mem_append_left _ (id_mem s))),
      body_listed R par rest h2 fun m hm => hp m (List.mem_append_right _ hm)]
theorem handlers_listed (R : Nat → Bool) : ∀ hs : Handlers, hs.nodes.Nodup → listed R hs.places = expected R hs.begins
  | .nil, _ => rfl
  | .cons _ name b rest, hd => by
    simp only [Handlers.nodes] at hd
    obtain ⟨-, hd, -⟩ := List.nodup_append.1 hd
    obtain ⟨h1, h2, -⟩ := List.nodup_append.1 hd
    simp only [Handlers.places, Handlers.begins, listed_append, expected_append,
      body_listed R .other b h1 (fun _ _ => plain_other), handlers_listed R rest h2]
    cases name with
    | none => simp [listed, expected]
    | some n => by_cases hR : R n = true <;> simp [listed, expected, hR, given, stmtLocs]
end

mutual
theorem stmt_begins : ∀ (s : Stmt) (x : Nat × Nat), x ∈ s.begins →
    (∃ t ∈ s.all, t.id = x.1 ∧ t.first = x.2) ∨ (x.1 = x.2 ∧ x.1 ∈ s.names)
  | .simple n, x, h | .jump _ n, x, h | .whole n _, x, h => by
    simp only [Stmt.begins, List.mem_singleton] at h
    subst h
    exact .inl ⟨_, by simp only [Stmt.all]; exact List.mem_singleton.2 rfl, rfl, rfl⟩
  | .cond n t b e, x, h | .loop n t b e, x, h | .each n t _ b e, x, h => by
    simp only [Stmt.begins, List.mem_cons, List.mem_append] at h
    rcases h with rfl | h | h
    · exact .inl ⟨_, by simp only [Stmt.all]; exact List.mem_cons_self, rfl, rfl⟩
    · rcases body_begins b x h with ⟨s, h1, h2⟩ | ⟨h1, h2⟩
      · exact .inl ⟨s, by simp [Stmt.all, h1], h2⟩
      · exact .inr ⟨h1, by simp [Stmt.names, h2]⟩
    · rcases body_begins e x h with ⟨s, h1, h2⟩ | ⟨h1, h2⟩
      · exact .inl ⟨s, by simp [Stmt.all, h1], h2⟩
      · exact .inr ⟨h1, by simp [Stmt.names, h2]⟩
  | .enter n i name items b, x, h => by
    simp only [Stmt.begins, List.mem_cons] at h
    rcases h with rfl | h
    · exact .inl ⟨_, by simp only [Stmt.all]; exact List.mem_cons_self, rfl, rfl⟩
    · rcases body_begins b x h with ⟨s, h1, h2⟩ | ⟨h1, h2⟩
      · exact .inl ⟨s, by simp [Stmt.all, h1], h2⟩
      · exact .inr ⟨h1, by simp [Stmt.names, h2]⟩
  | .try_ n f r hs e l, x, h => by
    simp only [Stmt.begins, List.mem_append] at h
    rcases h with (h | h) | h | h | h
    · rcases stmt_begins f x h with ⟨s, h1, h2⟩ | ⟨h1, h2⟩
      · exact .inl ⟨s, by simp [Stmt.all, h1], h2⟩
      · exact .inr ⟨h1, by simp [Stmt.names, h2]⟩
    · split at h
      · rename_i hl
        simp only [List.mem_singleton] at h
        subst h
        refine .inl ⟨_, by simp only [Stmt.all]; exact List.mem_cons_self, rfl, ?_⟩
        simp only [Stmt.first]
        cases f <;> simp [Stmt.leaf] at hl <;> rfl
      · cases h
    · rcases body_begins r x h with ⟨s, h1, h2⟩ | ⟨h1, h2⟩
      · exact .inl ⟨s, by simp [Stmt.all, h1], h2⟩
      · exact .inr ⟨h1, by simp [Stmt.names, h2]⟩
    · rcases handlers_begins hs x h with ⟨s, h1, h2⟩ | ⟨h1, h2⟩
      · exact .inl ⟨s, by simp [Stmt.all, h1], h2⟩
      · exact .inr ⟨h1, by simp [Stmt.names, h2]⟩
    · rcases body_begins e x h with ⟨s, h1, h2⟩ | ⟨h1, h2⟩
      · exact .inl ⟨s, by simp [Stmt.all, h1], h2⟩
      · exact .inr ⟨h1, by simp [Stmt.names, h2]⟩
theorem body_begins : ∀ (b : Body) (x : Nat × Nat), x ∈ b.begins →
    (∃ t ∈ b.all, t.id = x.1 ∧ t.first = x.2) ∨ (x.1 = x.2 ∧ x.1 ∈ b.names)
  | .nil, x, h => by simp [Body.begins] at h
  | .cons s rest, x, h => by
    simp only [Body.begins, List.mem_append] at h
    rcases h with h | h
    · rcases stmt_begins s x h with ⟨t, h1, h2⟩ | ⟨h1, h2⟩
      · exact .inl ⟨t, by simp [Body.all, h1], h2⟩
      · exact .inr ⟨h1, by simp [Body.names, h2]⟩
    · rcases body_begins rest x h with ⟨t, h1, h2⟩ | ⟨h1, h2⟩
      · exact .inl ⟨t, by simp [Body.all, h1], h2⟩
      · exact .inr ⟨h1, by simp [Body.names, h2]⟩
theorem handlers_begins : ∀ (hs : Handlers) (x : Nat × Nat), x ∈ hs.begins →
    (∃ t ∈ hs.all, t.id = x.1 ∧ t.first = x.2) ∨ (x.1 = x.2 ∧ x.1 ∈ hs.names)
  | .nil, x, h => by simp [Handlers.begins] at h
  | .cons _ name b rest, x, h => by
    simp only [Handlers.begins, List.mem_append, List.mem_map] at h
    rcases h with ⟨n, h, rfl⟩ | h | h
    · exact .inr ⟨rfl, by simp [Handlers.names]; exact .inl (by simpa using h)⟩
    · rcases body_begins b x h with ⟨t, h1, h2⟩ | ⟨h1, h2⟩
      · exact .inl ⟨t, by simp [Handlers.all, h1], h2⟩
      · exact .inr ⟨h1, by simp [Handlers.names, h2]⟩
    · rcases handlers_begins rest x h with ⟨t, h1, h2⟩ | ⟨h1, h2⟩
      · exact .inl ⟨t, by simp [Handlers.all, h1], h2⟩
      · exact .inr ⟨h1, by simp [Handlers.names, h2]⟩
end

mutual
theorem begins_stmt : ∀ (s t : Stmt), t ∈ s.all → t.tryCompound = false → (t.id, t.first) ∈ s.begins
  | .simple n, t, h, _ | .jump _ n, t, h, _ | .whole n _, t, h, _ => by
    simp only [Stmt.all, List.mem_singleton] at h
    subst h
    simp [Stmt.begins, Stmt.id, Stmt.first]
  | .cond n i b e, t, h, hc | .loop n i b e, t, h, hc | .each n i _ b e, t, h, hc => by
    simp only [Stmt.all, List.mem_cons, List.mem_append] at h
    rcases h with rfl | h | h
    · simp [Stmt.begins, Stmt.id, Stmt.first]
    · simp [Stmt.begins, begins_body b t h hc]
    · simp [Stmt.begins, begins_body e t h hc]
  | .enter n i name items b, t, h, hc => by
    simp only [Stmt.all, List.mem_cons] at h
    rcases h with rfl | h
    · simp [Stmt.begins, Stmt.id, Stmt.first]
    · simp [Stmt.begins, begins_body b t h hc]
  | .try_ n f r hs e l, t, h, hc => by
    simp only [Stmt.all, List.mem_cons, List.mem_append] at h
    rcases h with rfl | h | h | h | h
    · have hl : f.leaf = true := by simpa [Stmt.tryCompound] using hc
      have hf : f.first = f.id := by cases f <;> simp [Stmt.leaf] at hl <;> rfl
      simp [Stmt.begins, Stmt.id, Stmt.first, hl, hf]
    · simp [Stmt.begins, begins_stmt f t h hc]
    · simp [Stmt.begins, begins_body r t h hc]
    · simp [Stmt.begins, begins_handlers hs t h hc]
    · simp [Stmt.begins, begins_body e t h hc]
theorem begins_body : ∀ (b : Body) (t : Stmt), t ∈ b.all → t.tryCompound = false → (t.id, t.first) ∈ b.begins
  | .nil, t, h, _ => by simp [Body.all] at h
  | .cons s rest, t, h, hc => by
    simp only [Body.all, List.mem_append] at h
    rcases h with h | h
    · simp [Body.begins, begins_stmt s t h hc]
    · simp [Body.begins, begins_body rest t h hc]
theorem begins_handlers : ∀ (hs : Handlers) (t : Stmt), t ∈ hs.all → t.tryCompound = false → (t.id, t.first) ∈ hs.begins
  | .nil, t, h, _ => by simp [Handlers.all] at h
  | .cons _ name b rest, t, h, hc => by
    simp only [Handlers.all, List.mem_append] at h
    rcases h with h | h
    · simp [Handlers.begins, begins_body b t h hc]
    · simp [Handlers.begins, begins_handlers rest t h hc]
end

mutual
theorem count_stmt (m : Nat) : ∀ s : Stmt, (s.begins.map (·.1)).count m ≤ s.nodes.count m
  | .simple n | .jump _ n | .whole n _ => by simp [Stmt.begins, Stmt.nodes]
  | .cond n t b e | .loop n t b e | .each n i t b e => by
    have := count_body m b
    have := count_body m e
    simp only [Stmt.begins, Stmt.nodes, List.map_cons, List.map_append, List.count_cons, List.count_append]
    omega
  | .enter n i name items b => by
    have := count_body m b
    simp only [Stmt.begins, Stmt.nodes, List.map_cons, List.count_cons, List.count_append]
    omega
  | .try_ n f r hs e l => by
    have := count_stmt m f
    have := count_body m r
    have := count_handlers m hs
    have := count_body m e
    simp only [Stmt.begins, Stmt.nodes, List.map_append, List.count_cons, List.count_append]
    by_cases hl : f.leaf = true
    · simp only [hl, if_true, List.map_cons, List.map_nil, List.count_cons, List.count_nil]
      omega
    · simp only [hl]
      simp only [Bool.false_eq_true, if_false, List.map_nil, List.count_nil]
      omega
theorem count_body (m : Nat) : ∀ b : Body, (b.begins.map (·.1)).count m ≤ b.nodes.count m
  | .nil => by simp [Body.begins]
  | .cons s rest => by
    have := count_stmt m s
    have := count_body m rest
    simp only [Body.begins, Body.nodes, List.map_append, List.count_append]
    omega
theorem count_handlers (m : Nat) : ∀ hs : Handlers, (hs.begins.map (·.1)).count m ≤ hs.nodes.count m
  | .nil => by simp [Handlers.begins]
  | .cons _ name b rest => by
    have := count_body m b
    have := count_handlers m rest
    have hn : ((name.toList.map fun n => (n, n)).map (·.1) : List Nat) = name.toList := by cases name <;> rfl
    simp only [Handlers.begins, Handlers.nodes, List.map_append, List.count_append, hn]
    omega
end

/-! ### Programs -/

/-- The nodes of a module or function. -/
def Part.nodes (u : Part) : List Nat := u.args.toList ++ u.body.nodes

/-- All locations of a program: its module and the functions. -/
def places (prog : List Part) : List Place := prog.flatMap Part.places

/-- All nodes of a program. -/
def nodes (prog : List Part) : List Nat := prog.flatMap Part.nodes

/-- All statements of a program, outside of `finally`, `match` and asynchronous statements. -/
def stmts (prog : List Part) : List Stmt := prog.flatMap fun u => u.body.all

/-- The names that a program gives to exceptions. -/
def excNames (prog : List Part) : List Nat := prog.flatMap fun u => u.body.names

theorem program_listed (R : Nat → Bool) : ∀ prog : List Part, (nodes prog).Nodup →
    listed R (places prog) = expected R (prog.flatMap fun u => u.body.begins)
  | [], _ => rfl
  | u :: prog, hd => by
    simp only [nodes, List.flatMap_cons] at hd
    obtain ⟨h1, h2, -⟩ := List.nodup_append.1 hd
    have hu := (List.nodup_append.1 h1).2.1
    have ha : listed R (u.args.toList.map fun n => ⟨n, true, .other⟩) = [] := by
      apply listed_nothing
      intro l hl
      obtain ⟨m, -, rfl⟩ := List.mem_map.1 hl
      rfl
    have := program_listed R prog h2
    simp only [places] at this
    simp only [places, List.flatMap_cons, listed_append, expected_append, Part.places, ha, List.nil_append,
      body_listed R .other u.body hu fun _ _ => plain_other, this]

theorem program_count (m : Nat) : ∀ prog : List Part, ((prog.flatMap fun u => u.body.begins).map (·.1)).count m ≤ (nodes prog).count m
  | [] => by simp
  | u :: prog => by
    have h1 := count_body m u.body
    have h2 := program_count m prog
    simp only [nodes] at h2
    simp only [nodes, List.flatMap_cons, List.map_append, List.count_append, Part.nodes]
    omega

theorem begins_nodup {prog : List Part} (hd : (nodes prog).Nodup) : ((prog.flatMap fun u => u.body.begins).map (·.1)).Nodup := by
  rw [List.nodup_iff_count] at hd ⊢
  exact fun m => Nat.le_trans (program_count m prog) (hd m)

/-- What is listed: the nodes that begin where the program gets to. -/
theorem mem_statementNodes (pos : Position) (kind : Nat → Kind) (R : Nat → Bool) {prog : List Part} (hd : (nodes prog).Nodup)
    {locs : List Place} (hl : locs.Perm ((places prog).filter fun l => R l.node)) (n : Nat) :
    n ∈ statementNodes pos kind locs ↔ included (kind n) = true ∧ ∃ l, R l = true ∧ (n, l) ∈ prog.flatMap fun u => u.body.begins := by
  unfold statementNodes
  rw [(Candidates.sortBy_perm _ _).mem_iff, List.mem_filter, (hl.flatMap_right given).mem_iff]
  have := program_listed R prog hd
  unfold listed at this
  rw [this]
  simp only [expected, List.mem_map, List.mem_filter, Prod.exists]
  constructor
  · rintro ⟨⟨a, b, ⟨h1, h2⟩, rfl⟩, h3⟩
    exact ⟨h3, b, h2, h1⟩
  · rintro ⟨h3, b, h2, h1⟩
    exact ⟨⟨n, b, ⟨h1, h2⟩, rfl⟩, h3⟩

/-- C154: only statements that the program may get to are looked at, or names that are given to exceptions (see `C154_name_counterexample`), and
they are no assertions, definitions, comments, `pass`, imports of the module or assignments without uses. -/
theorem C154_only (pos : Position) (kind : Nat → Kind) (R : Nat → Bool) {prog : List Part} (hd : (nodes prog).Nodup) {locs : List Place}
    (hl : locs.Perm ((places prog).filter fun l => R l.node)) (n : Nat) (h : n ∈ statementNodes pos kind locs) :
    ((∃ s ∈ stmts prog, s.id = n ∧ R s.first = true) ∨ (n ∈ excNames prog ∧ R n = true)) ∧
      kind n ∉ [.assert_, .classDef, .functionDef, .comment, .pass, .import_ true] ∧ ∀ uses, kind n = .assign uses → ∃ u ∈ uses, u ≠ 0 := by
  obtain ⟨h1, l, h2, h3⟩ := (mem_statementNodes pos kind R hd hl n).1 h
  obtain ⟨u, hu, h3⟩ := List.mem_flatMap.1 h3
  refine ⟨?_, ?_, ?_⟩
  · rcases body_begins u.body _ h3 with ⟨t, ht, rfl, rfl⟩ | ⟨h5, h4⟩
    · exact .inl ⟨t, List.mem_flatMap.2 ⟨u, hu, ht⟩, rfl, h2⟩
    · simp only at h5
      subst h5
      exact .inr ⟨List.mem_flatMap.2 ⟨u, hu, h4⟩, h2⟩
  · intro hm
    simp only [List.mem_cons, List.not_mem_nil, or_false] at hm
    rcases hm with hm | hm | hm | hm | hm | hm <;> simp [included, breakOn, skip, hm] at h1
  · intro uses hk
    by_cases hall : ∃ u ∈ uses, u ≠ 0
    · exact hall
    · have : uses.sum = 0 := List.sum_eq_zero_iff_forall_eq_nat.2 fun u hu => by
        by_cases h0 : u = 0
        · exact h0
        · exact (hall ⟨u, hu, h0⟩).elim
      simp [included, breakOn, skip, hk, this] at h1

/-- C154, the other way round: of the statements outside of `finally`, `match` and asynchronous statements, all that the program may get to are
looked at, except for those kinds, and except for `try`s that do not begin with a simple statement (see `C154_try_counterexample`). -/
theorem C154_all_partial (pos : Position) (kind : Nat → Kind) (R : Nat → Bool) {prog : List Part} (hd : (nodes prog).Nodup)
    {locs : List Place} (hl : locs.Perm ((places prog).filter fun l => R l.node)) (s : Stmt) (hs : s ∈ stmts prog) (hc : s.tryCompound = false) :
    s.id ∈ statementNodes pos kind locs ↔ R s.first = true ∧ included (kind s.id) = true := by
  rw [mem_statementNodes pos kind R hd hl]
  obtain ⟨u, hu, hs⟩ := List.mem_flatMap.1 hs
  have hb : (s.id, s.first) ∈ prog.flatMap fun u => u.body.begins := List.mem_flatMap.2 ⟨u, hu, begins_body u.body s hs hc⟩
  constructor
  · rintro ⟨h1, l, h2, h3⟩
    have := List.inj_on_of_nodup_map (begins_nodup hd) h3 hb rfl
    cases this
    exact ⟨h2, h1⟩
  · rintro ⟨h1, h2⟩
    exact ⟨h2, _, h1, hb⟩

/-- What decides whether a statement is looked at if the program gets to it. -/
theorem C154_kinds (k : Kind) : included k = true ↔ k ∉ [.assert_, .classDef, .functionDef, .comment, .pass, .import_ true] ∧
    ∀ uses, k = .assign uses → ∃ u ∈ uses, u ≠ 0 := by
  cases k with
  | assign uses =>
    simp only [included, breakOn, skip, Bool.not_false, Bool.true_and, Bool.not_eq_true', beq_eq_false_iff_ne, ne_eq]
    rw [List.sum_eq_zero_iff_forall_eq_nat]
    constructor
    · intro h
      refine ⟨by simp, fun us hu => ?_⟩
      cases hu
      by_contra hn
      exact h fun u hu => by_contra fun h0 => hn ⟨u, hu, h0⟩
    · rintro ⟨-, h⟩ hz
      obtain ⟨u, hu, h0⟩ := h uses rfl
      exact h0 (hz u hu)
  | import_ top => cases top <;> simp [included, breakOn, skip]
  | _ => simp [included, breakOn, skip]

theorem upTo_trans (pos : Position) (a b c : Nat) (h1 : upTo pos a b = true) (h2 : upTo pos b c = true) : upTo pos a c = true := by
  simp only [upTo, decide_eq_true_eq] at *
  omega

theorem upTo_total (pos : Position) (a b : Nat) : upTo pos a b = true ∨ upTo pos b a = true := by
  simp only [upTo, decide_eq_true_eq]
  omega

/-- C154: no statement is looked at twice, and they are in the order of the text. -/
theorem C154_once (pos : Position) (kind : Nat → Kind) (R : Nat → Bool) {prog : List Part} (hd : (nodes prog).Nodup) {locs : List Place}
    (hl : locs.Perm ((places prog).filter fun l => R l.node)) :
    (statementNodes pos kind locs).Nodup ∧ (statementNodes pos kind locs).Pairwise fun m n =>
      (pos m).1 < (pos n).1 ∨ (pos m).1 = (pos n).1 ∧ (pos m).2 ≤ (pos n).2 := by
  constructor
  · unfold statementNodes
    rw [(Candidates.sortBy_perm _ _).nodup_iff]
    refine List.Nodup.filter _ ?_
    rw [(hl.flatMap_right given).nodup_iff]
    have := program_listed R prog hd
    unfold listed at this
    rw [this]
    exact (List.filter_sublist.map _).nodup (begins_nodup hd)
  · refine (Candidates.sortBy_pairwise (upTo_trans pos) (upTo_total pos) _).imp fun {m n} h => ?_
    simpa only [upTo, decide_eq_true_eq] using h

/-- C154: the order in which the traversal yields locations does not matter if no two statements begin at the same position. -/
theorem C154_same (pos : Position) (kind : Nat → Kind) (R : Nat → Bool) {prog : List Part} (hd : (nodes prog).Nodup) {locs locs' : List Place}
    (hl : locs.Perm ((places prog).filter fun l => R l.node)) (hl' : locs'.Perm locs)
    (hp : ∀ m ∈ nodes prog, ∀ n ∈ nodes prog, pos m = pos n → m = n) :
    statementNodes pos kind locs' = statementNodes pos kind locs := by
  have hperm : (statementNodes pos kind locs').Perm (statementNodes pos kind locs) :=
    (Candidates.sortBy_perm _ _).trans (((hl'.flatMap_right given).filter _).trans (Candidates.sortBy_perm _ _).symm)
  refine hperm.eq_of_pairwise ?_ (C154_once pos kind R hd (hl'.trans hl)).2 (C154_once pos kind R hd hl).2
  intro m n hm hn h1 h2
  have hin : ∀ k ∈ statementNodes pos kind locs, k ∈ nodes prog := by
    intro k hk
    obtain ⟨-, l, -, h⟩ := (mem_statementNodes pos kind R hd hl k).1 hk
    have hc := program_count k prog
    have : 0 < ((prog.flatMap fun u => u.body.begins).map (·.1)).count k :=
      List.count_pos_iff.2 (List.mem_map.2 ⟨_, h, rfl⟩)
    exact List.count_pos_iff.1 (by omega)
  refine hp m (hin m (hperm.mem_iff.1 hm)) n (hin n hn) ?_
  exact Prod.ext (by omega) (by omega)

/-! ### Executions -/

open Verif.Traverse Verif.Flow in
mutual
theorem count_flow_stmt (m : Nat) : ∀ s : StmtNodes.Stmt, s.flow.noFinally = true → s.flow.locations.count m ≤ s.nodes.count m
  | .simple n, _ | .jump _ n, _ | .whole n _, _ => by simp [StmtNodes.Stmt.flow, Flow.Stmt.locations, StmtNodes.Stmt.nodes]
  | .cond n t b e, h | .loop n t b e, h | .each n i t b e, h => by
    simp only [StmtNodes.Stmt.flow, Flow.Stmt.noFinally, Bool.and_eq_true] at h
    have := count_flow_body m b h.1
    have := count_flow_body m e h.2
    simp only [StmtNodes.Stmt.flow, Flow.Stmt.locations, StmtNodes.Stmt.nodes, List.count_cons, List.count_append]
    omega
  | .enter n i name items b, h => by
    simp only [StmtNodes.Stmt.flow, Flow.Stmt.noFinally] at h
    have := count_flow_body m b h
    simp only [StmtNodes.Stmt.flow, Flow.Stmt.locations, StmtNodes.Stmt.nodes, List.count_cons, List.count_append]
    omega
  | .try_ n f r hs e l, h => by
    simp only [StmtNodes.Stmt.flow, Flow.Stmt.noFinally, Bool.and_eq_true] at h
    obtain ⟨⟨⟨⟨h1, h2⟩, h3⟩, h4⟩, h5⟩ := h
    have := count_flow_stmt m f h1
    have := count_flow_body m r h2
    have := count_flow_handlers m hs h3
    have := count_flow_body m e h4
    have hl : l.flow.locations = [] := by
      cases l with
      | nil => rfl
      | cons => simp [StmtNodes.Body.flow, Flow.Body.isNil] at h5
    simp only [StmtNodes.Stmt.flow, Flow.Stmt.locations, StmtNodes.Stmt.nodes, List.count_cons, List.count_append, hl, List.count_nil]
    omega
theorem count_flow_body (m : Nat) : ∀ b : StmtNodes.Body, b.flow.noFinally = true → b.flow.locations.count m ≤ b.nodes.count m
  | .nil, _ => by simp [StmtNodes.Body.flow, Flow.Body.locations]
  | .cons s rest, h => by
    simp only [StmtNodes.Body.flow, Flow.Body.noFinally, Bool.and_eq_true] at h
    have := count_flow_stmt m s h.1
    have := count_flow_body m rest h.2
    simp only [StmtNodes.Body.flow, Flow.Body.locations, StmtNodes.Body.nodes, List.count_append]
    omega
theorem count_flow_handlers (m : Nat) : ∀ hs : StmtNodes.Handlers, hs.flow.noFinally = true → hs.flow.locations.count m ≤ hs.nodes.count m
  | .nil, _ => by simp [StmtNodes.Handlers.flow, Flow.Handlers.locations]
  | .cons _ name b rest, h => by
    simp only [StmtNodes.Handlers.flow, Flow.Handlers.noFinally, Bool.and_eq_true] at h
    have := count_flow_body m b h.1
    have := count_flow_handlers m rest h.2
    simp only [StmtNodes.Handlers.flow, Flow.Handlers.locations, StmtNodes.Handlers.nodes, List.count_append]
    omega
end

theorem flow_nodup {p : Body} (hf : p.flow.noFinally = true) (hd : p.nodes.Nodup) : p.flow.locations.Nodup := by
  rw [List.nodup_iff_count] at hd ⊢
  exact fun m => Nat.le_trans (count_flow_body m p hf) (hd m)

/-- The nodes of the locations that a traversal yields. -/
def yielded (g : Flow.Graph) (locs : List Traverse.Loc) (n : Nat) : Bool := decide (some n ∈ locs.map (Traverse.locAt g))

/-- Executions begin with the location `x`, if they begin at all. -/
def Starts (x : Nat) (A : Flow.Beh) : Prop := (∀ t o, A t o → (t = [] ∧ o ≠ .normal) ∨ t.head? = some x) ∧ A [x] .cut

theorem starts_leaf (W : Flow.World) (x : Nat) : Starts x (Flow.Leaf W x) := by
  refine ⟨fun t o h => ?_, .after⟩
  cases h <;> simp

theorem starts_seq {x : Nat} {A B : Flow.Beh} (h : Starts x A) : Starts x (Flow.Seq A B) := by
  refine ⟨fun t o hr => ?_, .first h.2 (by simp)⟩
  cases hr with
  | @both t1 t2 o h1 h2 =>
    rcases h.1 _ _ h1 with ⟨-, h3⟩ | h3
    · exact (h3 rfl).elim
    · right
      cases t1 with
      | nil => cases h3
      | cons a t1 => exact h3
  | first h1 h2 => exact h.1 _ _ h1

theorem starts_loop {x : Nat} {H D B E : Flow.Beh} (h : Starts x H) (hD : Starts x D) : Starts x (Flow.LoopRun H D B E) := by
  have front : ∀ {t1 t2 : List Nat}, H t1 .normal → (t1 ++ t2).head? = some x := by
    intro t1 t2 h1
    rcases h.1 _ _ h1 with ⟨-, h3⟩ | h3
    · exact (h3 rfl).elim
    · cases t1 with
      | nil => cases h3
      | cons a t1 => exact h3
  refine ⟨fun t o hr => ?_, .head h.2 (by simp)⟩
  cases hr with
  | done h1 => exact (starts_seq hD).1 _ _ h1
  | head h1 _ => exact h.1 _ _ h1
  | next h1 _ _ _ => exact .inr (front h1)
  | brk h1 _ => exact .inr (front h1)
  | leave h1 _ _ _ _ => exact .inr (front h1)

theorem starts_stmt (W : Flow.World) : ∀ s : Stmt, s.flow.noTry = true → Starts s.first (Flow.Run W s.flow)
  | .simple n, _ => by simp only [Stmt.flow, Flow.Run, Stmt.first]; exact starts_leaf W n
  | .jump _ n, _ => by simp only [Stmt.flow, Flow.Run, Stmt.first]; exact starts_seq (starts_leaf W n)
  | .whole n _, _ => by simp only [Stmt.flow, Flow.Run, Stmt.first]; exact starts_leaf W n
  | .cond _ t b e, _ => by simp only [Stmt.flow, Flow.Run, Stmt.first]; exact starts_seq (starts_leaf W t)
  | .loop _ t b e, _ => by simp only [Stmt.flow, Flow.Run, Stmt.first]; exact starts_loop (starts_leaf W t) (starts_leaf W t)
  | .each _ i t b e, _ => by simp only [Stmt.flow, Flow.Run, Stmt.first]; exact starts_seq (starts_leaf W i)
  | .enter _ i _ _ b, _ => by simp only [Stmt.flow, Flow.Run, Stmt.first]; exact starts_seq (starts_leaf W i)
  | .try_ _ _ _ _ _ _, h => by simp [Stmt.flow, Flow.Stmt.noTry] at h

/-- C154 with C83: in a module without `try`, the statements that are looked at are those whose first location may be executed. Missing: `try`,
for which see `C154_all_partial`, C82 and C83; what **C70** excludes; and functions, which are looked at even if they are not called. -/
theorem C154_executed_partial (pos : Position) (kind : Nat → Kind) (W : Flow.World) (s0 : Stmt) (rest p : Body) (he : p = .cons s0 rest)
    (hp : p.flow.noTry = true) (hf : W.asks = true ∨ p.flow.noFor = true) (hfin : p.flow.noFinally = true) (hd : p.nodes.Nodup)
    (lx : Traverse.Loc) (hlx : Traverse.locAt (Flow.moduleGraph p.flow) lx = some s0.first) (ylocs : List Traverse.Loc)
    (h : Traverse.Locs (Traverse.ofFlow (Flow.moduleGraph p.flow))
      ⟨.successors, Traverse.onLoc (Flow.moduleGraph p.flow) (fun _ => false), true, false⟩ [lx] ylocs)
    (locs : List Place) (hl : locs.Perm ((p.places .other).filter fun l => yielded (Flow.moduleGraph p.flow) ylocs l.node))
    (s : Stmt) (hs : s ∈ p.all) (hc : s.tryCompound = false) :
    s.id ∈ statementNodes pos kind locs ↔ (∃ tr o, Flow.RunBody W p.flow tr o ∧ s.first ∈ tr) ∧ included (kind s.id) = true := by
  have hprog : nodes [⟨none, p⟩] = p.nodes := by simp [nodes, Part.nodes]
  have hpl : places [⟨none, p⟩] = p.places .other := by simp [places, Part.places]
  have hst : Starts s0.first (Flow.RunBody W p.flow) := by
    subst he
    simp only [Body.flow, Flow.Body.noTry, Bool.and_eq_true] at hp
    simp only [Body.flow, Flow.RunBody]
    exact starts_seq (starts_stmt W s0 hp.1)
  rw [C154_all_partial pos kind (yielded (Flow.moduleGraph p.flow) ylocs) (prog := [⟨none, p⟩]) (by rw [hprog]; exact hd)
    (by rw [hpl]; exact hl) s (by simp [stmts, hs]) hc]
  refine and_congr_left fun _ => ?_
  unfold yielded
  rw [decide_eq_true_eq, List.mem_map]
  have hdl := flow_nodup hfin hd
  constructor
  · rintro ⟨ly, hly, hy⟩
    by_cases he : ly = lx
    · subst he
      rw [hlx] at hy
      simp only [Option.some.injEq] at hy
      exact ⟨_, _, hst.2, by simp [hy]⟩
    · obtain ⟨y, tr, o, t1, t2, t3, h1, h2, h3, -⟩ := Traverse.C83_possible_after_partial W p.flow hp hf hfin hdl s0.first
        ⟨_, _, hst.2, by simp⟩ (fun _ => false) true false lx ly hlx ylocs h hly (.inr he)
      rw [hy] at h1
      cases h1
      exact ⟨tr, o, h2, by rw [h3]; simp⟩
  · rintro ⟨tr, o, hr, hm⟩
    rcases hst.1 tr o hr with ⟨rfl, -⟩ | hhead
    · cases hm
    · obtain ⟨rest', rfl⟩ : ∃ rest, tr = s0.first :: rest := by
        cases tr with
        | nil => cases hhead
        | cons a rest => simp only [List.head?_cons, Option.some.injEq] at hhead; exact ⟨rest, by rw [hhead]⟩
      simp only [List.mem_cons] at hm
      by_cases he : s.first = s0.first
      · refine ⟨lx, ?_, by rw [he]; exact hlx⟩
        refine ((Traverse.C82_partial [lx] (fun l hl => ?_) (.inl ⟨lx, rfl⟩) ylocs h).2 lx).2 ⟨(Traverse.entered_succ rfl).2 (.inl ⟨rfl, rfl⟩), ?_⟩
        · rw [List.mem_singleton.1 hl]; exact Traverse.lt_of_get hlx
        · right
          simp [Traverse.onLoc, hlx]
      · rcases hm with hm | hm
        · exact (he hm).elim
        · obtain ⟨t2, t3, rfl⟩ := List.append_of_mem hm
          exact Traverse.C83_after_partial W p.flow (Flow.body_mild p.flow hp) hf (.inl hp) hfin hdl _ o hr (fun _ => false) true false [] t2 t3
            s0.first s.first rfl (fun _ => rfl) (fun _ _ => rfl) (.inr rfl) lx hlx ylocs h

mutual
theorem begin_node_stmt : ∀ (s : Stmt) (x : Nat × Nat), x ∈ s.begins → x.2 ∈ s.nodes
  | .simple n, x, h | .jump _ n, x, h | .whole n _, x, h => by
    simp only [Stmt.begins, List.mem_singleton] at h
    simp [Stmt.nodes, h]
  | .cond n t b e, x, h | .loop n t b e, x, h | .each n i t b e, x, h => by
    simp only [Stmt.begins, List.mem_cons, List.mem_append] at h
    simp only [Stmt.nodes, List.mem_cons, List.mem_append]
    rcases h with rfl | h | h
    · simp
    · simp [begin_node_body b x h]
    · simp [begin_node_body e x h]
  | .enter n i name items b, x, h => by
    simp only [Stmt.begins, List.mem_cons] at h
    simp only [Stmt.nodes, List.mem_cons, List.mem_append]
    rcases h with rfl | h
    · simp
    · simp [begin_node_body b x h]
  | .try_ n f r hs e l, x, h => by
    simp only [Stmt.begins, List.mem_append] at h
    simp only [Stmt.nodes, List.mem_cons, List.mem_append]
    rcases h with (h | h) | h | h | h
    · simp [begin_node_stmt f x h]
    · split at h
      · simp only [List.mem_singleton] at h
        subst h
        simp [id_mem f]
      · cases h
    · simp [begin_node_body r x h]
    · simp [begin_node_handlers hs x h]
    · simp [begin_node_body e x h]
theorem begin_node_body : ∀ (b : Body) (x : Nat × Nat), x ∈ b.begins → x.2 ∈ b.nodes
  | .nil, x, h => by simp [Body.begins] at h
  | .cons s rest, x, h => by
    simp only [Body.begins, List.mem_append] at h
    simp only [Body.nodes, List.mem_append]
    exact h.imp (begin_node_stmt s x) (begin_node_body rest x)
theorem begin_node_handlers : ∀ (hs : Handlers) (x : Nat × Nat), x ∈ hs.begins → x.2 ∈ hs.nodes
  | .nil, x, h => by simp [Handlers.begins] at h
  | .cons _ name b rest, x, h => by
    simp only [Handlers.begins, List.mem_append, List.mem_map] at h
    simp only [Handlers.nodes, List.mem_append]
    rcases h with ⟨n, hn, rfl⟩ | h | h
    · exact .inl hn
    · exact .inr (.inl (begin_node_body b x h))
    · exact .inr (.inr (begin_node_handlers rest x h))
end

/-- C154 with C83, for functions: of a function without `try`, the statements that are looked at are those whose first location may be executed
when the function is called. The traversal gets to a function at its arguments. -/
theorem C154_executed_function_partial (pos : Position) (kind : Nat → Kind) (W : Flow.World) (args : Nat) (p : Body)
    (hp : p.flow.noTry = true) (hf : W.asks = true ∨ p.flow.noFor = true) (hfin : p.flow.noFinally = true) (hd : (args :: p.nodes).Nodup)
    (lx : Traverse.Loc) (hlx : Traverse.locAt (Flow.functionGraph args p.flow) lx = some args) (ylocs : List Traverse.Loc)
    (h : Traverse.Locs (Traverse.ofFlow (Flow.functionGraph args p.flow))
      ⟨.successors, Traverse.onLoc (Flow.functionGraph args p.flow) (fun _ => false), true, false⟩ [lx] ylocs)
    (locs : List Place) (hl : locs.Perm ((places [⟨some args, p⟩]).filter fun l => yielded (Flow.functionGraph args p.flow) ylocs l.node))
    (s : Stmt) (hs : s ∈ p.all) (hc : s.tryCompound = false) :
    s.id ∈ statementNodes pos kind locs ↔ (∃ tr o, Flow.RunBody W p.flow tr o ∧ s.first ∈ tr) ∧ included (kind s.id) = true := by
  have hprog : nodes [⟨some args, p⟩] = args :: p.nodes := by simp [nodes, Part.nodes]
  have hloc : ∀ m ∈ p.flow.locations, m ∈ p.nodes := fun m hm =>
    List.count_pos_iff.1 (Nat.lt_of_lt_of_le (List.count_pos_iff.2 hm) (count_flow_body m p hfin))
  have hdl : (args :: p.flow.locations).Nodup :=
    List.nodup_cons.2 ⟨fun hm => (List.nodup_cons.1 hd).1 (hloc _ hm), flow_nodup hfin (List.nodup_cons.1 hd).2⟩
  rw [C154_all_partial pos kind (yielded (Flow.functionGraph args p.flow) ylocs) (prog := [⟨some args, p⟩]) (by rw [hprog]; exact hd)
    hl s (by simp [stmts, hs]) hc]
  refine and_congr_left fun _ => ?_
  unfold yielded
  rw [decide_eq_true_eq, List.mem_map]
  have hfirst : s.first ≠ args := fun e => (List.nodup_cons.1 hd).1 (e ▸ begin_node_body p _ (begins_body p s hs hc))
  constructor
  · rintro ⟨ly, hly, hy⟩
    have hne : ly ≠ lx := by
      rintro rfl
      rw [hlx] at hy
      exact hfirst (Option.some.inj hy).symm
    obtain ⟨y, tr, o, t1, t2, t3, h1, h2, h3, -⟩ := Traverse.C83_possible_after_function_partial W args p.flow hp hf hfin hdl args (.inl rfl)
      (fun _ => false) true false lx ly hlx ylocs h hly (.inr hne)
    rw [hy] at h1
    cases h1
    refine ⟨tr, o, h2, ?_⟩
    have hm : s.first ∈ args :: tr := by rw [h3]; simp
    exact (List.mem_cons.1 hm).resolve_left hfirst
  · rintro ⟨tr, o, hr, hm⟩
    obtain ⟨t2, t3, rfl⟩ := List.append_of_mem hm
    exact Traverse.C83_after_function_partial W args p.flow (Flow.body_mild p.flow hp) hf (.inl hp) hfin hdl _ o hr (fun _ => false) true false [] t2 t3
      args s.first rfl (fun _ => rfl) (fun _ _ => rfl) (.inr rfl) lx hlx ylocs h

/-! ### Examples and counterexamples -/

/-- Statements in turn. -/
def body : List Stmt → Body
  | [] => .nil
  | s :: ss => .cons s (body ss)

/-- Nodes are numbered in the order of the text, one in each line, and all of them are of the same kind. -/
def pos0 : Position := fun n => (n, 0)

/-- All are looked at. -/
def kind0 : Nat → Kind := fun _ => .other

/-- `import m` (0), `for i in m.x:` (1–3), `if i:` (4, 5), `break` (6), `assert i` (7), `i += 1` (8), `with m.y as z:` (9–11), `f(z)` (12),
`x = 0` (13) -/
def small : Body := body [.simple 0, .each 1 2 3 (body [.cond 4 5 (body [.jump .brk 6]) .nil, .simple 7, .simple 8]) .nil,
  .enter 9 10 (some 11) [] (body [.simple 12]), .simple 13]

def smallKind : Nat → Kind
  | 0 => .import_ true
  | 7 => .assert_
  | 8 => .assign [0, 2]
  | 13 => .assign [0]
  | _ => .other

/-- What is looked at. -/
example : statementNodes pos0 smallKind (places [⟨none, small⟩]) = [1, 4, 6, 8, 9, 12] := by decide +kernel

/-- Of a function, the arguments are no statement; what follows `return` (2) is not reached. -/
example : statementNodes pos0 kind0 ((places [⟨some 0, body [.simple 1, .jump .ret 2, .simple 3]⟩]).filter fun l => l.node != 3) = [1, 2] := by
  decide +kernel

/-- A `try` that begins with a simple statement is looked at. -/
example : statementNodes pos0 kind0 (places [⟨none, body [.try_ 0 (.simple 1) .nil (.cons [] none (body [.simple 2]) .nil) .nil .nil]⟩]) = [0, 1, 2] := by
  decide +kernel

/-- Statements of the same line are in the order of their columns. -/
example : statementNodes (fun n => (1, n)) kind0 (places [⟨none, body [.simple 4, .simple 2]⟩]) = [2, 4] := by decide +kernel

/-- `while a: break; b`, and `c`: what follows `break` (3) is not looked at, as no execution gets to it. -/
def broken : Body := body [.loop 0 1 (body [.jump .brk 2, .simple 3]) .nil, .simple 4]

example : ∃ ylocs, Traverse.Locs (Traverse.ofFlow (Flow.moduleGraph broken.flow))
      ⟨.successors, Traverse.onLoc (Flow.moduleGraph broken.flow) (fun _ => false), true, false⟩ [(2, 0)] ylocs ∧
    Traverse.locAt (Flow.moduleGraph broken.flow) (2, 0) = some 1 ∧
    statementNodes pos0 kind0 ((broken.places .other).filter fun l => yielded (Flow.moduleGraph broken.flow) ylocs l.node) = [0, 2, 4] :=
  ⟨_, ⟨_, ⟨20, _, rfl, by decide +kernel, by decide +kernel, rfl⟩, rfl⟩, by decide +kernel, by decide +kernel⟩

example (ylocs : List Traverse.Loc) (h : Traverse.Locs (Traverse.ofFlow (Flow.moduleGraph broken.flow))
      ⟨.successors, Traverse.onLoc (Flow.moduleGraph broken.flow) (fun _ => false), true, false⟩ [(2, 0)] ylocs)
    (hn : 3 ∉ statementNodes pos0 kind0 ((broken.places .other).filter fun l => yielded (Flow.moduleGraph broken.flow) ylocs l.node))
    (tr : List Nat) (o : Flow.Out) (hr : Flow.RunBody Flow.raising broken.flow tr o) : 3 ∉ tr := fun hm =>
  hn ((C154_executed_partial pos0 kind0 Flow.raising (.loop 0 1 (body [.jump .brk 2, .simple 3]) .nil) (body [.simple 4]) broken rfl (by decide)
    (.inl rfl) (by decide) (by decide) (2, 0) (by decide +kernel) ylocs h _ (List.Perm.refl _) (.simple 3) (by simp [broken, body, Body.all, Stmt.all]) rfl).2
      ⟨⟨tr, o, hr, hm⟩, rfl⟩)

/-- `def f(x): return x; b`, with the arguments 0: what follows `return` (2) is not looked at, and no call executes it. -/
def returns : Body := body [.jump .ret 1, .simple 2]

example : ∃ lx ylocs, Traverse.locAt (Flow.functionGraph 0 returns.flow) lx = some 0 ∧
    Traverse.Locs (Traverse.ofFlow (Flow.functionGraph 0 returns.flow))
      ⟨.successors, Traverse.onLoc (Flow.functionGraph 0 returns.flow) (fun _ => false), true, false⟩ [lx] ylocs ∧
    statementNodes pos0 kind0 ((places [⟨some 0, returns⟩]).filter fun l => yielded (Flow.functionGraph 0 returns.flow) ylocs l.node) = [1] :=
  ⟨(0, 0), _, by decide +kernel, ⟨_, ⟨20, _, rfl, by decide +kernel, by decide +kernel, rfl⟩, rfl⟩, by decide +kernel⟩

example (ylocs : List Traverse.Loc) (h : Traverse.Locs (Traverse.ofFlow (Flow.functionGraph 0 returns.flow))
      ⟨.successors, Traverse.onLoc (Flow.functionGraph 0 returns.flow) (fun _ => false), true, false⟩ [(0, 0)] ylocs)
    (hn : 2 ∉ statementNodes pos0 kind0 ((places [⟨some 0, returns⟩]).filter fun l => yielded (Flow.functionGraph 0 returns.flow) ylocs l.node))
    (tr : List Nat) (o : Flow.Out) (hr : Flow.RunBody Flow.raising returns.flow tr o) : 2 ∉ tr := fun hm =>
  hn ((C154_executed_function_partial pos0 kind0 Flow.raising 0 returns (by decide) (.inl rfl) (by decide) (by decide) (0, 0) (by decide +kernel)
    ylocs h _ (List.Perm.refl _) (.simple 2) (by simp [returns, body, Body.all, Stmt.all]) rfl).2 ⟨⟨tr, o, hr, hm⟩, rfl⟩)

/-- What C154 says of all statements does not hold of a `try` that begins with an `if`, a loop, a `with` or another `try`. -/
theorem C154_try_counterexample :
    (body [.try_ 0 (.cond 1 2 (body [.simple 3]) .nil) .nil (.cons [] none (body [.simple 4]) .nil) .nil .nil]).all.map Stmt.id = [0, 1, 3, 4] ∧
    statementNodes pos0 kind0 (places [⟨none, body [.try_ 0 (.cond 1 2 (body [.simple 3]) .nil) .nil (.cons [] none (body [.simple 4]) .nil) .nil .nil]⟩]) =
      [1, 3, 4] := by
  decide +kernel

/-- The name given to an exception is looked at, although it is no statement. -/
theorem C154_name_counterexample :
    (body [.try_ 0 (.simple 1) .nil (.cons ["E".toList] (some 2) (body [.simple 3]) .nil) .nil .nil]).all.map Stmt.id = [0, 1, 3] ∧
    statementNodes pos0 kind0 (places [⟨none, body [.try_ 0 (.simple 1) .nil (.cons ["E".toList] (some 2) (body [.simple 3]) .nil) .nil .nil]⟩]) =
      [0, 1, 2, 3] := by
  decide +kernel

/-- The statements in a `finally` and those in a `match` are not looked at: `try: a`, `finally: b` and `match c: case _: d`. -/
theorem C154_finally_counterexample :
    statementNodes pos0 kind0 (places [⟨none, body [.try_ 0 (.simple 1) .nil .nil .nil (body [.simple 2]), .whole 3 (body [.simple 4])]⟩]) = [0, 1, 3] := by
  decide +kernel

end Verif.StmtNodes
