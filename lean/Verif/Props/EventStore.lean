import Verif.Model.EventStore

/-!
C146: What is stored for a location is found, and asking for it changes no other answers.
-/

namespace Verif.EventStore

/-- What happens to a store: an event is added, or a variable is asked for. -/
inductive Op where
  | add (v : Var) (e : Event)
  | ask (v : Var)

/-- The store after all of this. -/
def run (ops : List Op) : Store := ops.foldl (fun s o => match o with | .add v e => add s v e | .ask v => (forVar s v).2) []

/-- The events that were added for a variable, in order. -/
def added (v : Var) (ops : List Op) : List Event := ops.filterMap fun o => match o with | .add w e => if w = v then some e else none | .ask _ => none

theorem get?_touch (s : Store) (v w : Var) : (Dict.get? (touch s v) w).getD [] = (Dict.get? s w).getD [] := by
  unfold touch
  split
  · rfl
  · rename_i h
    rw [Dict.get?_append]
    cases hw : Dict.get? s w with
    | some es => rfl
    | none =>
      by_cases hv : v = w <;> simp [Dict.get?, hv]

theorem nodup_touch {s : Store} (h : (Dict.keys s).Nodup) (v : Var) : (Dict.keys (touch s v)).Nodup := by
  unfold touch
  split
  · exact h
  · rename_i hv
    unfold Dict.keys at *
    rw [List.map_append, List.nodup_append]
    refine ⟨h, by simp, fun a ha b hb => ?_⟩
    simp only [List.map_cons, List.map_nil, List.mem_singleton] at hb
    subst hb
    rintro rfl
    exact hv ha

theorem foldl_spec : ∀ (ops : List Op) (s : Store), (Dict.keys s).Nodup →
    (Dict.keys (ops.foldl (fun s o => match o with | .add v e => add s v e | .ask v => (forVar s v).2) s)).Nodup ∧
    ∀ v, (Dict.get? (ops.foldl (fun s o => match o with | .add v e => add s v e | .ask v => (forVar s v).2) s) v).getD [] = (Dict.get? s v).getD [] ++ added v ops
  | [], s, h => by simp [added, h]
  | .add w e :: ops, s, h => by
    obtain ⟨h1, h2⟩ := foldl_spec ops (add s w e) (Dict.nodup_keys_set _ _ _ h)
    refine ⟨h1, fun v => ?_⟩
    rw [List.foldl_cons, h2 v, add, Dict.get?_set]
    by_cases hv : v = w
    · subst hv
      simp [added]
    · have : ¬ w = v := fun h => hv h.symm
      simp [added, hv, this]
  | .ask w :: ops, s, h => by
    obtain ⟨h1, h2⟩ := foldl_spec ops (forVar s w).2 (nodup_touch h w)
    refine ⟨h1, fun v => ?_⟩
    rw [List.foldl_cons, h2 v, forVar, get?_touch]
    simp [added]

/-- C146: For a variable, the events that were added for it are found, in order. -/
theorem C146_var (ops : List Op) (v : Var) : (forVar (run ops) v).1 = added v ops := by
  have := (foldl_spec ops [] (by simp [Dict.keys])).2 v
  simpa [forVar, run, Dict.get?] using this

theorem all_filter {s : Store} (h : (Dict.keys s).Nodup) (v : Var) : ((all s).filter fun p => decide (p.1 = v)).map Prod.snd = (Dict.get? s v).getD [] := by
  induction s with
  | nil => rfl
  | cons g s ih =>
    obtain ⟨w, es⟩ := g
    unfold Dict.keys at h
    rw [List.map_cons, List.nodup_cons] at h
    have ih := ih h.2
    have hall : all ((w, es) :: s) = es.map (fun e => (w, e)) ++ all s := rfl
    rw [hall, List.filter_append, List.map_append, ih, Dict.get?]
    by_cases hw : w = v
    · subst hw
      have hn : Dict.get? s w = none := (Dict.get?_eq_none_iff s w).2 h.1
      have hf : (es.map fun e => (w, e)).filter (fun p => decide (p.1 = w)) = es.map fun e => (w, e) := by
        rw [List.filter_eq_self]
        simp
      have hm : ∀ es : List Event, (es.map fun e => (w, e)).map Prod.snd = es := by
        intro es
        induction es with
        | nil => rfl
        | cons e es ih => simp [ih]
      rw [hf, hn, hm]
      simp
    · have hf : (es.map fun e => (w, e)).filter (fun p => decide (p.1 = v)) = [] := by
        rw [List.filter_eq_nil_iff]
        simp [hw]
      rw [hf]
      simp [hw]

/-- C146: All events are found: those of each variable are the ones that were added for it, in order. -/
theorem C146_all (ops : List Op) (v : Var) : ((all (run ops)).filter fun p => decide (p.1 = v)).map Prod.snd = added v ops := by
  obtain ⟨h1, h2⟩ := foldl_spec ops [] (by simp [Dict.keys])
  rw [run, all_filter h1, h2 v]
  simp [Dict.get?]

/-- C146: By name and by node, those are found that have it. -/
theorem C146_name_node (s : Store) : (∀ x, forName s x = (all s).filter fun p => decide (p.1.name = x)) ∧ ∀ n, forNode s n = (all s).filter fun p => decide (p.2.node = n) := by
  constructor
  · intro x
    unfold forName all
    rw [List.filter_flatMap]
    congr 1
    funext g
    split
    · rename_i h
      rw [eq_comm, List.filter_eq_self]
      simp [h]
    · rename_i h
      rw [eq_comm, List.filter_eq_nil_iff]
      simp [h]
  · intro n
    unfold forNode all
    rw [List.filter_flatMap]
    congr 1
    funext g
    rw [List.filter_map]
    rfl

/-- C146: Asking for a variable changes neither these answers nor those for other variables. -/
theorem C146_asking (s : Store) (v : Var) :
    all (forVar s v).2 = all s ∧ (∀ x, forName (forVar s v).2 x = forName s x) ∧ (∀ n, forNode (forVar s v).2 n = forNode s n) ∧
    ∀ w, (forVar (forVar s v).2 w).1 = (forVar s w).1 := by
  have h : all (forVar s v).2 = all s := by
    simp only [forVar, touch]
    split
    · rfl
    · simp [all]
  refine ⟨h, fun x => ?_, fun n => ?_, fun w => get?_touch s v w⟩
  · rw [(C146_name_node _).1, (C146_name_node _).1, h]
  · rw [(C146_name_node _).2, (C146_name_node _).2, h]

/-! ### `vars_in` -/

theorem foldl_nodes (c : Var × Event → Bool) (v : Var) : ∀ (l : List (Var × Event)) (d : Dict Var (List Nat)),
    Dict.get? (l.foldl (fun d p => if c p then addNode d p.1 p.2.node else d) d) v =
      if l.filter (fun p => c p && decide (p.1 = v)) = [] then Dict.get? d v
      else some ((Dict.get? d v).getD [] ++ (l.filter fun p => c p && decide (p.1 = v)).map fun p => p.2.node)
  | [], d => by simp
  | p :: l, d => by
    rw [List.foldl_cons, foldl_nodes c v l]
    by_cases hc : c p = true
    · by_cases hp : p.1 = v
      · rw [if_pos hc, List.filter_cons_of_pos (by simp [hc, hp]), addNode, hp, Dict.get?_set_self]
        by_cases hl : l.filter (fun p => c p && decide (p.1 = v)) = [] <;> simp [hl]
      · rw [if_pos hc, List.filter_cons_of_neg (by simp [hp]), addNode, Dict.get?_set_ne _ _ (fun h => hp h.symm)]
    · rw [if_neg hc, List.filter_cons_of_neg (by simp [hc])]

/-- The nodes of the events of a variable at locations: of the given types, and inside of the given node. -/
def nodesOf (kinds : Option (List Kind)) (whole : Bool) (inside : Nat → Bool) (v : Var) (locs : List Store) : List Nat :=
  ((locs.flatMap all).filter fun p => (match kinds with | none => true | some ks => decide (p.2.kind ∈ ks)) && (whole || inside p.2.node) && decide (p.1 = v)).map
    fun p => p.2.node

/-- C146: `vars_in` has just the variables that have events of the types inside of the node, with the nodes of these, in order. -/
theorem C146_vars_in (kinds : Option (List Kind)) (whole : Bool) (inside : Nat → Bool) (locs : List Store) (v : Var) :
    Dict.get? (varsIn kinds whole inside locs) v =
      if nodesOf kinds whole inside v locs = [] then none else some (nodesOf kinds whole inside v locs) := by
  unfold varsIn nodesOf
  rw [foldl_nodes]
  simp only [List.map_eq_nil_iff]
  rfl

/-! ### `name_to_var` -/

theorem nameIn_spec {x : Str} {scope : Nat} : ∀ {s : Store}, (∀ v es, (v, es) ∈ s → es ≠ []) → ∃ r, nameIn x scope s = .ok r ∧
    (∀ v, r = some v → v.name = x ∧ ∃ e es, (v, e :: es) ∈ s ∧ e.scope = scope) ∧
    (r = none → ∀ v e es, (v, e :: es) ∈ s → v.name = x → e.scope ≠ scope)
  | [], _ => ⟨none, rfl, by simp, by simp⟩
  | (v, []) :: s, h => absurd rfl (h v [] (by simp))
  | (v, e :: es) :: s, h => by
    rw [nameIn]
    split
    · rename_i hv
      refine ⟨some v, rfl, ?_, by simp⟩
      rintro w ⟨rfl⟩
      exact ⟨hv.1, e, es, by simp, hv.2⟩
    · rename_i hv
      obtain ⟨r, h1, h2, h3⟩ := nameIn_spec (x := x) (scope := scope) (s := s) fun v es hm => h v es (List.mem_cons_of_mem _ hm)
      refine ⟨r, h1, fun w hw => ?_, fun hr w e' es' hm hx hs => ?_⟩
      · obtain ⟨a, e', es', hm, hs⟩ := h2 w hw
        exact ⟨a, e', es', List.mem_cons_of_mem _ hm, hs⟩
      · rcases List.mem_cons.1 hm with hm | hm
        · cases hm
          exact hv ⟨hx, hs⟩
        · exact h3 hr w e' es' hm hx hs

theorem nameToVar_spec {x : Str} {scope : Nat} : ∀ {locs : List Store}, (∀ s ∈ locs, ∀ v es, (v, es) ∈ s → es ≠ []) → ∃ r, nameToVar x scope locs = .ok r ∧
    (∀ v, r = some v → v.name = x ∧ ∃ s ∈ locs, ∃ e es, (v, e :: es) ∈ s ∧ e.scope = scope) ∧
    (r = none → ∀ s ∈ locs, ∀ v e es, (v, e :: es) ∈ s → v.name = x → e.scope ≠ scope)
  | [], _ => ⟨none, rfl, by simp, by simp⟩
  | s :: locs, h => by
    obtain ⟨r, h1, h2, h3⟩ := nameIn_spec (x := x) (scope := scope) (h s (by simp))
    rw [nameToVar, h1]
    cases r with
    | some v =>
      refine ⟨some v, rfl, fun w hw => ?_, by simp⟩
      obtain ⟨a, e, es, hm, hs⟩ := h2 w hw
      exact ⟨a, s, by simp, e, es, hm, hs⟩
    | none =>
      obtain ⟨r, i1, i2, i3⟩ := nameToVar_spec (x := x) (scope := scope) (locs := locs) fun s hs => h s (List.mem_cons_of_mem _ hs)
      refine ⟨r, i1, fun w hw => ?_, fun hr s' hs' => ?_⟩
      · obtain ⟨a, s', hs', b⟩ := i2 w hw
        exact ⟨a, s', List.mem_cons_of_mem _ hs', b⟩
      · rcases List.mem_cons.1 hs' with rfl | hs'
        · exact h3 rfl
        · exact i3 hr s' hs'

/-- The events that a store has, each variable with at least one. -/
def Fresh (s : Store) : Prop := ∃ l : List (Var × Event), s = run (l.map fun p => .add p.1 p.2)

theorem fresh_nonempty : ∀ (l : List (Var × Event)) (s : Store), (∀ v es, (v, es) ∈ s → es ≠ []) →
    ∀ v es, (v, es) ∈ (l.map fun p => Op.add p.1 p.2).foldl (fun s o => match o with | .add v e => add s v e | .ask v => (forVar s v).2) s → es ≠ []
  | [], _, h => h
  | p :: l, s, h => by
    refine fresh_nonempty l _ fun v es hm => ?_
    have hset : ∀ (s : Store) (w : Var) (x : List Event), x ≠ [] → (∀ v es, (v, es) ∈ s → es ≠ []) → ∀ v es, (v, es) ∈ Dict.set s w x → es ≠ [] := by
      intro s w x hx
      induction s with
      | nil =>
        intro _ v es hm
        simp only [Dict.set, List.mem_singleton, Prod.mk.injEq] at hm
        rw [hm.2]
        exact hx
      | cons g s ih =>
        obtain ⟨k, y⟩ := g
        intro hs v es hm
        rw [Dict.set] at hm
        split at hm
        · rcases List.mem_cons.1 hm with hm | hm
          · cases hm
            exact hx
          · exact hs v es (List.mem_cons_of_mem _ hm)
        · rcases List.mem_cons.1 hm with hm | hm
          · cases hm
            exact hs k y (by simp)
          · exact ih (fun v es hm => hs v es (List.mem_cons_of_mem _ hm)) v es hm
    exact hset s p.1 _ (by simp) h v es hm

/-- C146: As long as no variable was asked for, `name_to_var` raises no exception. What it finds has the name, and is used in the scope; if it finds nothing, no
variable of that name has its first event at a location in the scope. -/
theorem C146_name_to_var_partial {x : Str} {scope : Nat} {locs : List Store} (h : ∀ s ∈ locs, Fresh s) : ∃ r, nameToVar x scope locs = .ok r ∧
    (∀ v, r = some v → v.name = x ∧ ∃ s ∈ locs, ∃ e, (v, e) ∈ all s ∧ e.scope = scope) ∧
    (r = none → ∀ s ∈ locs, ∀ v e es, (forVar s v).1 = e :: es → v.name = x → e.scope ≠ scope) := by
  obtain ⟨r, h1, h2, h3⟩ := nameToVar_spec (x := x) (scope := scope) (locs := locs) fun s hs v es hm => by
    obtain ⟨l, rfl⟩ := h s hs
    exact fresh_nonempty l [] (by simp) v es hm
  refine ⟨r, h1, fun v hv => ?_, fun hr s hs v e es he => ?_⟩
  · obtain ⟨a, s, hs, e, es, hm, b⟩ := h2 v hv
    refine ⟨a, s, hs, e, ?_, b⟩
    unfold all
    rw [List.mem_flatMap]
    exact ⟨_, hm, by simp⟩
  · refine h3 hr s hs v e es ?_
    simp only [forVar] at he
    cases hg : Dict.get? s v with
    | none => simp [hg] at he
    | some fs =>
      simp only [hg, Option.getD_some] at he
      subst he
      exact Dict.mem_of_get? hg

/-! ### Examples and counterexamples -/

def exX : Var := ⟨"x".toList, 0⟩
def exY : Var := ⟨"y".toList, 0⟩
/-- `x = x + 1` -/
def exStore : Store := run [.add exX ⟨2, .read, 0⟩, .add exX ⟨1, .reassign, 0⟩]

example : (forVar exStore exX).1 = [⟨2, .read, 0⟩, ⟨1, .reassign, 0⟩] ∧ forNode exStore 1 = [(exX, ⟨1, .reassign, 0⟩)] ∧ forName exStore "y".toList = [] ∧
    varsIn (some [.read]) true (fun _ => false) [exStore] = [(exX, [2])] ∧ varsIn none false (fun n => n = 1) [exStore] = [(exX, [1])] := by decide +kernel

example : Fresh exStore := ⟨[(exX, ⟨2, .read, 0⟩), (exX, ⟨1, .reassign, 0⟩)], rfl⟩

example : nameToVar "x".toList 0 [exStore] = .ok (some exX) := by decide +kernel

/-- The property fails for `in`: a variable that was asked for is there afterwards. -/
theorem C146_contains_counterexample : contains exStore exY = false ∧ contains (forVar exStore exY).2 exY = true := by decide +kernel

/-- It fails for `name_to_var`, too, which raises an exception afterwards. -/
theorem C146_name_to_var_counterexample : nameToVar "z".toList 0 [exStore] = .ok none ∧ nameToVar "z".toList 0 [(forVar exStore exY).2] = .error .indexError := by
  decide +kernel

/-- `name_to_var` looks at the first event of a variable only, which may be in another scope: `f(lambda: x, x)`. -/
theorem C146_first_counterexample :
    nameToVar "x".toList 0 [run [.add exX ⟨1, .read, 7⟩, .add exX ⟨2, .read, 0⟩]] = .ok none ∧
    (exX, ⟨2, .read, 0⟩) ∈ all (run [.add exX ⟨1, .read, 7⟩, .add exX ⟨2, .read, 0⟩]) := by decide +kernel

end Verif.EventStore
