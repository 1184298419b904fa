import Verif.Model.Analyses
import Verif.Model.Purity
import Verif.Lemmas.FlowStart
import Mathlib.Tactic.Tauto

/-!
C155: where `locals()` or `globals()` is called, no check relies on what is known about variables.
-/

namespace Verif.Analyses

/-! ### What is said -/

/-- The nodes right below a node. -/
def T.kids : T → List T
  | .name _ => []
  | .call _ f args => f :: args.list
  | .delAttr e => [e]
  | .lambda defaults b => defaults.list ++ [b]
  | .func notes other body => notes.list ++ other.list ++ body.list
  | .cls other body => other.list ++ body.list
  | .node cs => cs.list

/-- Those of them that are no decorators, bases or keywords of classes, annotations of what is returned, defaults of keyword-only parameters or of
parameters of `lambda`, and not below `del e.a`. -/
def T.shown : T → List T
  | .name _ => []
  | .call _ f args => f :: args.list
  | .delAttr _ => []
  | .lambda _ b => [b]
  | .func notes _ body => notes.list ++ body.list
  | .cls _ body => body.list
  | .node cs => cs.list

/-- A node, and those below it. -/
inductive Below (below : T → List T) : T → T → Prop where
  | refl (t : T) : Below below t t
  | step {t u v : T} (h : u ∈ below t) (hu : Below below u v) : Below below t v

/-- `locals` or `globals` is called in this line of the node. -/
def Asks (below : T → List T) (t : T) (x : Str) (l : Nat) : Prop :=
  (x = "locals".toList ∨ x = "globals".toList) ∧ ∃ args, Below below t (.call l (.name x) args)

/-- … of the module. -/
def Module.Asks (below : T → List T) (m : Module) (x : Str) (l : Nat) : Prop := ∃ t ∈ m.body.list, Analyses.Asks below t x l

/-- Both descriptions of the module have statements, or none. -/
def Module.Fits (m : Module) : Prop := m.flow = .nil ↔ m.body = .nil

/-! ### Proofs -/

theorem below_cases {k : T → List T} {t v : T} (h : Below k t v) : v = t ∨ ∃ u ∈ k t, Below k u v := by
  cases h with
  | refl => exact .inl rfl
  | step h hu => exact .inr ⟨_, h, hu⟩

theorem asks_step {k : T → List T} {t u : T} {x : Str} {l : Nat} (h : u ∈ k t) (hu : Asks k u x l) : Asks k t x l :=
  ⟨hu.1, hu.2.imp fun _ ha => .step h ha⟩

theorem unknowable_some {f : T} {x : Str} (h : unknowable f = some x) : f = .name x ∧ (x = "locals".toList ∨ x = "globals".toList) := by
  cases f with
  | name y =>
    simp only [unknowable] at h
    split at h
    · rename_i h1
      cases h
      exact ⟨rfl, h1⟩
    · exact nomatch h
  | _ => exact nomatch h

theorem unknowable_none {x : Str} (h : unknowable (.name x) = none) : ¬ (x = "locals".toList ∨ x = "globals".toList) := by
  simp only [unknowable] at h
  split at h
  · exact nomatch h
  · assumption

mutual
theorem visit_asks : ∀ {t : T} {c : Culprit}, (visit t).2 = some c → Asks T.shown t c.name c.line
  | .name _, _, h => nomatch h
  | .call l f args, c, h => by
    rw [visit] at h
    split at h
    · rename_i x hx
      cases h
      obtain ⟨rfl, h2⟩ := unknowable_some hx
      exact ⟨h2, args, .refl _⟩
    · split at h
      · rename_i xs c' e
        cases h
        exact asks_step (List.mem_cons_self ..) (visit_asks (t := f) (c := c) (by rw [e]))
      · obtain ⟨u, hu, h1⟩ := visitMany_asks (ts := args) h
        exact asks_step (List.mem_cons_of_mem _ hu) h1
  | .delAttr _, _, h => nomatch h
  | .lambda _ b, c, h => asks_step (List.mem_singleton.2 rfl) (visit_asks (t := b) (c := c) h)
  | .func notes o body, c, h => by
    rw [visit] at h
    split at h
    · rename_i xs c' e
      cases h
      obtain ⟨u, hu, h1⟩ := visitMany_asks (ts := notes) (c := c) (by rw [e])
      exact asks_step (List.mem_append_left _ hu) h1
    · split at h
      · rename_i xs c' e
        cases h
        obtain ⟨u, hu, h1⟩ := visitStmts_asks (ts := body) (c := c) (by rw [e])
        exact asks_step (List.mem_append_right _ hu) h1
      · obtain ⟨u, hu, h1⟩ := visitDefs_asks (ts := body) h
        exact asks_step (List.mem_append_right _ hu) h1
  | .cls o body, c, h => by
    rw [visit] at h
    split at h
    · rename_i xs c' e
      cases h
      obtain ⟨u, hu, h1⟩ := visitStmts_asks (ts := body) (c := c) (by rw [e])
      exact asks_step hu h1
    · obtain ⟨u, hu, h1⟩ := visitDefs_asks (ts := body) h
      exact asks_step hu h1
  | .node cs, c, h => by
    obtain ⟨u, hu, h1⟩ := visitMany_asks (ts := cs) (c := c) h
    exact asks_step hu h1
theorem visitMany_asks : ∀ {ts : Ts} {c : Culprit}, (visitMany ts).2 = some c → ∃ t ∈ ts.list, Asks T.shown t c.name c.line
  | .nil, _, h => nomatch h
  | .cons t rest, c, h => by
    rw [visitMany] at h
    split at h
    · rename_i xs c' e
      cases h
      exact ⟨t, List.mem_cons_self .., visit_asks (by rw [e])⟩
    · obtain ⟨u, hu, h1⟩ := visitMany_asks (ts := rest) h
      exact ⟨u, List.mem_cons_of_mem _ hu, h1⟩
theorem visitStmts_asks : ∀ {ts : Ts} {c : Culprit}, (visitStmts ts).2 = some c → ∃ t ∈ ts.list, Asks T.shown t c.name c.line
  | .nil, _, h => nomatch h
  | .cons t rest, c, h => by
    rw [visitStmts] at h
    split at h
    · obtain ⟨u, hu, h1⟩ := visitStmts_asks (ts := rest) h
      exact ⟨u, List.mem_cons_of_mem _ hu, h1⟩
    · split at h
      · rename_i xs c' e
        cases h
        exact ⟨t, List.mem_cons_self .., visit_asks (by rw [e])⟩
      · obtain ⟨u, hu, h1⟩ := visitStmts_asks (ts := rest) h
        exact ⟨u, List.mem_cons_of_mem _ hu, h1⟩
theorem visitDefs_asks : ∀ {ts : Ts} {c : Culprit}, (visitDefs ts).2 = some c → ∃ t ∈ ts.list, Asks T.shown t c.name c.line
  | .nil, _, h => nomatch h
  | .cons t rest, c, h => by
    rw [visitDefs] at h
    split at h
    · split at h
      · rename_i xs c' e
        cases h
        exact ⟨t, List.mem_cons_self .., visit_asks (by rw [e])⟩
      · obtain ⟨u, hu, h1⟩ := visitDefs_asks (ts := rest) h
        exact ⟨u, List.mem_cons_of_mem _ hu, h1⟩
    · obtain ⟨u, hu, h1⟩ := visitDefs_asks (ts := rest) h
      exact ⟨u, List.mem_cons_of_mem _ hu, h1⟩
end

/-- Nothing stops the analysis in a node, and it visits all names of it. -/
def Passed (t : T) (xs : List Str) : Prop :=
  (∀ x l, ¬ Asks T.shown t x l) ∧ ∀ x, Below T.shown t (.name x) → x ∈ xs

theorem Passed.mono {t : T} {xs ys : List Str} (h : Passed t xs) (hs : ∀ x ∈ xs, x ∈ ys) : Passed t ys := ⟨h.1, fun x hx => hs x (h.2 x hx)⟩

/-- What is below a node that is no call of `locals` or `globals` and no name. -/
theorem passed_of {t : T} {xs : List Str} (h : ∀ u ∈ t.shown, Passed u xs)
    (h1 : ∀ x l args, t = .call l (.name x) args → ¬ (x = "locals".toList ∨ x = "globals".toList)) (h2 : ∀ x, t ≠ .name x) : Passed t xs := by
  refine ⟨fun x l ⟨ha, args, hb⟩ => ?_, fun x hx => ?_⟩
  · rcases below_cases hb with e | ⟨u, hu, h3⟩
    · exact h1 x l args e.symm ha
    · exact (h u hu).1 x l ⟨ha, args, h3⟩
  · rcases below_cases hx with e | ⟨u, hu, h3⟩
    · exact absurd e.symm (h2 x)
    · exact (h u hu).2 x h3

mutual
theorem visit_passed : ∀ {t : T}, (visit t).2 = none → Passed t (visit t).1
  | .name x, _ => by
    refine ⟨fun y l ⟨_, args, hb⟩ => ?_, fun y hy => ?_⟩
    · rcases below_cases hb with e | ⟨u, hu, _⟩
      · exact nomatch e
      · exact nomatch hu
    · rcases below_cases hy with e | ⟨u, hu, _⟩
      · cases e
        exact List.mem_singleton.2 rfl
      · exact nomatch hu
  | .call l f args, h => by
    rw [visit] at h ⊢
    split at h
    · exact nomatch h
    · rename_i hf
      split at h
      · exact nomatch h
      · rename_i xs e
        simp only [e]
        have hvf := visit_passed (t := f) (by rw [e])
        have hva := visitMany_passed (ts := args) h
        refine passed_of (fun u hu => ?_) ?_ (fun _ => nofun)
        · rcases List.mem_cons.1 hu with rfl | hu
          · exact hvf.mono fun x hx => List.mem_append_left _ (by rw [e] at hx; exact hx)
          · exact (hva u hu).mono fun x hx => List.mem_append_right _ hx
        · intro x l' args' e'
          cases e'
          exact unknowable_none hf
  | .delAttr _, _ => passed_of (fun _ hu => nomatch hu) (fun _ _ _ => nofun) (fun _ => nofun)
  | .lambda _ b, h => by
    refine passed_of (fun u hu => ?_) (fun _ _ _ => nofun) (fun _ => nofun)
    rw [List.mem_singleton.1 hu]
    exact visit_passed (t := b) h
  | .func notes o body, h => by
    rw [visit] at h ⊢
    split at h
    · exact nomatch h
    · rename_i xs e
      split at h
      · exact nomatch h
      · rename_i ys e2
        simp only [e, e2]
        refine passed_of (fun u hu => ?_) (fun _ _ _ => nofun) (fun _ => nofun)
        rcases List.mem_append.1 hu with hu | hu
        · refine (visitMany_passed (ts := notes) (by rw [e]) u hu).mono fun x hx => ?_
          rw [e] at hx
          exact List.mem_append_left _ (List.mem_append_left _ hx)
        · by_cases hd : u.isDef = true
          · exact (visitDefs_passed (ts := body) h u hu hd).mono fun x hx => List.mem_append_right _ hx
          · refine (visitStmts_passed (ts := body) (by rw [e2]) u hu (by simpa using hd)).mono fun x hx => ?_
            rw [e2] at hx
            exact List.mem_append_left _ (List.mem_append_right _ hx)
  | .cls o body, h => by
    rw [visit] at h ⊢
    split at h
    · exact nomatch h
    · rename_i ys e2
      simp only [e2]
      refine passed_of (fun u hu => ?_) (fun _ _ _ => nofun) (fun _ => nofun)
      by_cases hd : u.isDef = true
      · exact (visitDefs_passed (ts := body) h u hu hd).mono fun x hx => List.mem_append_right _ hx
      · refine (visitStmts_passed (ts := body) (by rw [e2]) u hu (by simpa using hd)).mono fun x hx => ?_
        rw [e2] at hx
        exact List.mem_append_left _ hx
  | .node cs, h => passed_of (fun u hu => visitMany_passed (ts := cs) h u hu) (fun _ _ _ => nofun) (fun _ => nofun)
theorem visitMany_passed : ∀ {ts : Ts}, (visitMany ts).2 = none → ∀ t ∈ ts.list, Passed t (visitMany ts).1
  | .nil, _, _, ht => nomatch ht
  | .cons t rest, h, u, hu => by
    rw [visitMany] at h ⊢
    split at h
    · exact nomatch h
    · rename_i xs e
      simp only [e]
      rcases List.mem_cons.1 hu with e1 | hu
      · rw [e1]
        refine (visit_passed (by rw [e])).mono fun x hx => ?_
        rw [e] at hx
        exact List.mem_append_left _ hx
      · exact (visitMany_passed (ts := rest) h u hu).mono fun x hx => List.mem_append_right _ hx
theorem visitStmts_passed : ∀ {ts : Ts}, (visitStmts ts).2 = none → ∀ t ∈ ts.list, t.isDef = false → Passed t (visitStmts ts).1
  | .nil, _, _, ht, _ => nomatch ht
  | .cons t rest, h, u, hu, hd => by
    rw [visitStmts] at h ⊢
    by_cases ht : t.isDef = true
    · simp only [ht, if_true] at h ⊢
      rcases List.mem_cons.1 hu with e1 | hu
      · exact absurd ht (by simp [← e1, hd])
      · exact visitStmts_passed (ts := rest) h u hu hd
    · simp only [ht, Bool.false_eq_true, if_false] at h ⊢
      split at h
      · exact nomatch h
      · rename_i xs e
        simp only [e]
        rcases List.mem_cons.1 hu with e1 | hu
        · rw [e1]
          refine (visit_passed (by rw [e])).mono fun x hx => ?_
          rw [e] at hx
          exact List.mem_append_left _ hx
        · exact (visitStmts_passed (ts := rest) h u hu hd).mono fun x hx => List.mem_append_right _ hx
theorem visitDefs_passed : ∀ {ts : Ts}, (visitDefs ts).2 = none → ∀ t ∈ ts.list, t.isDef = true → Passed t (visitDefs ts).1
  | .nil, _, _, ht, _ => nomatch ht
  | .cons t rest, h, u, hu, hd => by
    rw [visitDefs] at h ⊢
    by_cases ht : t.isDef = true
    · simp only [ht, if_true] at h ⊢
      split at h
      · exact nomatch h
      · rename_i xs e
        simp only [e]
        rcases List.mem_cons.1 hu with e1 | hu
        · rw [e1]
          refine (visit_passed (by rw [e])).mono fun x hx => ?_
          rw [e] at hx
          exact List.mem_append_left _ hx
        · exact (visitDefs_passed (ts := rest) h u hu hd).mono fun x hx => List.mem_append_right _ hx
    · simp only [ht, Bool.false_eq_true, if_false] at h ⊢
      rcases List.mem_cons.1 hu with e1 | hu
      · exact absurd (e1 ▸ hd) ht
      · exact visitDefs_passed (ts := rest) h u hu hd
end

theorem collect_asks {body : Ts} {c : Culprit} (h : (collect body).2 = some c) : ∃ t ∈ body.list, Asks T.shown t c.name c.line := by
  unfold collect at h
  split at h
  · rename_i xs c' e
    cases h
    exact visitStmts_asks (by rw [e])
  · exact visitDefs_asks h

theorem collect_passed {body : Ts} (h : (collect body).2 = none) : ∀ t ∈ body.list, Passed t (collect body).1 := by
  intro u hu
  unfold collect at h ⊢
  split at h
  · exact nomatch h
  · rename_i xs e
    by_cases hd : u.isDef = true
    · exact (visitDefs_passed h u hu hd).mono fun x hx => List.mem_append_right _ hx
    · refine (visitStmts_passed (by rw [e]) u hu (by simpa using hd)).mono fun x hx => ?_
      rw [e] at hx
      exact List.mem_append_left _ hx

open Flow (Begun) in
theorem first_nil (m : Module) : m.first = [] ↔ m.flow = .nil := by
  constructor
  · intro h
    cases hf : m.flow with
    | nil => rfl
    | cons s rest =>
      exfalso
      have hb : Begun (Inside.first s) (Flow.visitBody (.cons s rest) [] (Flow.Graph.init, 0)).1 :=
        Flow.visitBody_begun rest [] _ (Flow.visit_begins s [] Flow.Graph.init 0 Flow.init_wf rfl rfl (fun j t h => by cases h))
      unfold Module.first at h
      rw [hf] at h
      simp only at h
      unfold Begun at hb
      rw [h] at hb
      exact nomatch hb
  · intro h
    unfold Module.first
    rw [h]
    rfl

/-! ### The property -/

/-- **C155**: just in a module without statements, the block that the graph begins with has no locations. -/
theorem C155_empty (m : Module) : m.first = [] ↔ m.flow = .nil := first_nil m

/-- **C155**: the analysis of a module succeeds just if the module has statements and `locals` and `globals` are not called in it. Missing: calls in decorators,
in bases and keywords of classes, in annotations of what is returned, in defaults of keyword-only parameters and of parameters of `lambda`, and in
`del e.a`; functions of the module with one of these names; and other names for these functions. -/
theorem C155_succeeds_partial {m : Module} (hm : m.Fits) :
    (runAnalyses m).successful = true ↔ m.body ≠ .nil ∧ ∀ x l, ¬ m.Asks T.shown x l := by
  unfold runAnalyses
  split
  · rename_i h
    have := hm.1 ((first_nil m).1 h)
    simp [this]
  · rename_i h
    have hb : m.body ≠ .nil := fun e => h ((first_nil m).2 (hm.2 e))
    split
    · rename_i hc
      refine iff_of_true rfl ⟨hb, fun x l ⟨t, ht, ha⟩ => (collect_passed hc t ht).1 x l ha⟩
    · rename_i c hc
      exact iff_of_false (fun h => nomatch h) fun ⟨_, h2⟩ => h2 _ _ (collect_asks hc)

theorem asks_mono {k k' : T → List T} (h : ∀ t u, u ∈ k t → u ∈ k' t) {t v : T} (hb : Below k t v) : Below k' t v := by
  induction hb with
  | refl => exact .refl _
  | step h1 _ ih => exact .step (h _ _ h1) ih

theorem shown_kids (t u : T) (h : u ∈ t.shown) : u ∈ t.kids := by
  cases t <;> simp only [T.shown, T.kids, List.mem_append, List.mem_cons] at h ⊢ <;> tauto

/-- **C155**: if there is nothing in these places, the analysis succeeds just if `locals` and `globals` are called nowhere in the module. -/
theorem C155_everywhere_partial {m : Module} (hm : m.Fits) (hs : ∀ t ∈ m.body.list, ∀ u, Below T.kids t u → u.kids = u.shown) :
    (runAnalyses m).successful = true ↔ m.body ≠ .nil ∧ ∀ x l, ¬ m.Asks T.kids x l := by
  rw [C155_succeeds_partial hm]
  refine and_congr_right fun _ => forall_congr' fun x => forall_congr' fun l => not_congr ?_
  constructor
  · rintro ⟨t, ht, ha, args, hb⟩
    exact ⟨t, ht, ha, args, asks_mono shown_kids hb⟩
  · rintro ⟨t, ht, ha, args, hb⟩
    refine ⟨t, ht, ha, args, ?_⟩
    have key : ∀ {t v : T}, Below T.kids t v → (∀ u, Below T.kids t u → u.kids = u.shown) → Below T.shown t v := by
      intro t v hb
      induction hb with
      | refl => exact fun _ => .refl _
      | step h1 _ ih => exact fun hk => .step ((hk _ (.refl _)) ▸ h1) (ih fun u hu => hk u (.step h1 hu))
    exact key hb (hs t ht)

/-- **C155**: in a module without statements, and where the analysis succeeds, there are no warnings. -/
theorem C155_silent {m : Module} (hm : m.Fits) (h : m.body = .nil ∨ (runAnalyses m).successful = true) : (runAnalyses m).warnings = [] := by
  unfold runAnalyses at h ⊢
  split
  · rfl
  · rename_i h1
    rw [if_neg h1] at h
    split
    · rfl
    · rename_i c hc
      rw [hc] at h
      rcases h with h | h
      · exact absurd ((first_nil m).2 (hm.2 h)) h1
      · exact nomatch h

theorem stmts_first : ∀ {ts : Ts} {c : Culprit}, (visitStmts ts).2 = some c → ∃ pre t post, ts.list = pre ++ t :: post ∧ t.isDef = false ∧
    Asks T.shown t c.name c.line ∧ ∀ u ∈ pre, u.isDef = false → ∀ x l, ¬ Asks T.shown u x l
  | .nil, _, h => nomatch h
  | .cons t rest, c, h => by
    rw [visitStmts] at h
    split at h
    · rename_i hd
      obtain ⟨pre, u, post, e, h1, h2, h3⟩ := stmts_first (ts := rest) h
      refine ⟨t :: pre, u, post, by rw [Ts.list, e, List.cons_append], h1, h2, ?_⟩
      intro v hv hvd
      rcases List.mem_cons.1 hv with rfl | hv
      · exact absurd hd (by simp [hvd])
      · exact h3 v hv hvd
    · rename_i hd
      split at h
      · rename_i xs c' e
        cases h
        exact ⟨[], t, rest.list, rfl, by simpa using hd, visit_asks (by rw [e]), fun _ hu => nomatch hu⟩
      · rename_i xs e0
        obtain ⟨pre, u, post, e, h1, h2, h3⟩ := stmts_first (ts := rest) h
        refine ⟨t :: pre, u, post, by rw [Ts.list, e, List.cons_append], h1, h2, ?_⟩
        intro v hv hvd
        rcases List.mem_cons.1 hv with rfl | hv
        · exact (visit_passed (by rw [e0])).1
        · exact h3 v hv hvd

theorem defs_first : ∀ {ts : Ts} {c : Culprit}, (visitDefs ts).2 = some c → ∃ pre t post, ts.list = pre ++ t :: post ∧ t.isDef = true ∧
    Asks T.shown t c.name c.line ∧ ∀ u ∈ pre, u.isDef = true → ∀ x l, ¬ Asks T.shown u x l
  | .nil, _, h => nomatch h
  | .cons t rest, c, h => by
    rw [visitDefs] at h
    split at h
    · rename_i hd
      split at h
      · rename_i xs c' e
        cases h
        exact ⟨[], t, rest.list, rfl, hd, visit_asks (by rw [e]), fun _ hu => nomatch hu⟩
      · rename_i xs e0
        obtain ⟨pre, u, post, e, h1, h2, h3⟩ := defs_first (ts := rest) h
        refine ⟨t :: pre, u, post, by rw [Ts.list, e, List.cons_append], h1, h2, ?_⟩
        intro v hv hvd
        rcases List.mem_cons.1 hv with rfl | hv
        · exact (visit_passed (by rw [e0])).1
        · exact h3 v hv hvd
    · rename_i hd
      obtain ⟨pre, u, post, e, h1, h2, h3⟩ := defs_first (ts := rest) h
      refine ⟨t :: pre, u, post, by rw [Ts.list, e, List.cons_append], h1, h2, ?_⟩
      intro v hv hvd
      rcases List.mem_cons.1 hv with rfl | hv
      · exact absurd hvd hd
      · exact h3 v hv hvd

/-- **C155**: if it fails in a module with statements, then there is one warning, which tells a line in which `locals` or `globals` is called: in the first
statement of the module that calls one of them, but that definitions of functions and classes come after all other statements. -/
theorem C155_warning {m : Module} (hm : m.Fits) (hb : m.body ≠ .nil) (h : (runAnalyses m).successful = false) :
    ∃ pre t post x l, m.body.list = pre ++ t :: post ∧ Asks T.shown t x l ∧
      (∀ u ∈ m.body.list, (∃ x l, Asks T.shown u x l) → u.isDef = false → t.isDef = false) ∧
      (∀ u ∈ pre, u.isDef = t.isDef → ∀ x l, ¬ Asks T.shown u x l) ∧
      (runAnalyses m).warnings = ["call to ".toList ++ x ++ " on line ".toList ++ (toString l).toList ++ " in ".toList ++ m.file ++
        ";  unable to determine variable scopes. This may disable some detectors.".toList] := by
  unfold runAnalyses at h
  split at h
  · rename_i h1
    exact absurd (hm.1 ((first_nil m).1 h1)) hb
  · rename_i h1
    split at h
    · exact nomatch h
    · rename_i c hc
      have hw : (runAnalyses m).warnings = [message m.file c] := by
        unfold runAnalyses
        rw [if_neg h1, hc]
      unfold collect at hc
      split at hc
      · rename_i xs c' e
        cases hc
        obtain ⟨pre, t, post, e1, h1, h2, h3⟩ := stmts_first (ts := m.body) (c := c) (by rw [e])
        exact ⟨pre, t, post, c.name, c.line, e1, h2, fun _ _ _ _ => h1, fun u hu hd => h3 u hu (hd.trans h1), hw⟩
      · rename_i xs e
        obtain ⟨pre, t, post, e1, h1, h2, h3⟩ := defs_first hc
        refine ⟨pre, t, post, c.name, c.line, e1, h2, fun u hu ⟨x, l, ha⟩ hd => ?_, fun u hu hd => h3 u hu (hd.trans h1), hw⟩
        exact absurd ha ((visitStmts_passed (by rw [e]) u hu hd).1 x l)

/-- **C155**: a check that needs the analysis does nothing if it failed, and otherwise all that it does. -/
theorem C155_guarded {α β : Type} (d : β) (f : α → β) (m : Module) (n : α) :
    ((runAnalyses m).successful = true → guarded d f m n = f n) ∧ ((runAnalyses m).successful = false → guarded d f m n = d) := by
  unfold guarded
  cases (runAnalyses m).successful <;> simp

/-- **C155**: where it succeeds, all names that are read in the module were visited, but those in the places that are left out. -/
theorem C155_visited {m : Module} (h : (runAnalyses m).successful = true) {t : T} (ht : t ∈ m.body.list) {x : Str} (hx : Below T.shown t (.name x)) :
    x ∈ (collect m.body).1 := by
  unfold runAnalyses at h
  split at h
  · exact nomatch h
  · split at h
    · rename_i hc
      exact (collect_passed hc t ht).2 x hx
    · exact nomatch h

/-! ### Examples -/

/-- A list of nodes. -/
def ts : List T → Ts
  | [] => .nil
  | t :: rest => .cons t (ts rest)

/-- A name. -/
def nm (x : String) : T := .name x.toList

/-- A call. -/
def cl (l : Nat) (f : String) (args : List T) : T := .call l (nm f) (ts args)

/-- A module with statements in different lines. -/
def md (body : List T) : Module :=
  ⟨"a.py".toList, (List.range body.length).foldr (fun l rest => .cons (.simple l) rest) .nil, ts body⟩

/-- `def f(a):` with the statements -/
def fn (body : List T) : T := .func .nil .nil (ts body)

/-- `def f(): print(globals())`, and then `print(locals())`: the warning is about the latter. -/
example : runAnalyses (md [fn [cl 2 "print" [cl 2 "globals" []]], cl 3 "print" [cl 3 "locals" []]]) =
    ⟨false, ["call to locals on line 3 in a.py;  unable to determine variable scopes. This may disable some detectors.".toList]⟩ := by decide +kernel

/-- `def f(): print(x)`, `print(y)`: the analysis succeeds, and the statement is visited first. -/
example : runAnalyses (md [fn [cl 2 "print" [nm "x"]], cl 3 "print" [nm "y"]]) = ⟨true, []⟩ ∧
    (collect (md [fn [cl 2 "print" [nm "x"]], cl 3 "print" [nm "y"]]).body).1 = ["print".toList, "y".toList, "print".toList, "x".toList] := by decide +kernel

/-- No statements. -/
example : runAnalyses (md []) = ⟨false, []⟩ := by decide +kernel

/-- `C155_succeeds_partial` for `print(locals())`. -/
example : (runAnalyses (md [cl 1 "print" [cl 1 "locals" []]])).successful = false := by
  have hf : (md [cl 1 "print" [cl 1 "locals" []]]).Fits := iff_of_false (fun h => nomatch h) (fun h => nomatch h)
  have h := mt (C155_succeeds_partial hf).1 (fun ⟨_, h⟩ => h "locals".toList 1
    ⟨cl 1 "print" [cl 1 "locals" []], List.mem_cons_self .., .inl rfl, .nil,
      .step (u := cl 1 "locals" []) (List.mem_cons_of_mem _ (List.mem_cons_self ..)) (.refl _)⟩)
  simpa using h

/-- A check that would report something: it does not where `locals` is called, and does where it is not. -/
example : guarded [] (fun n : Nat => [n]) (md [cl 1 "locals" []]) 5 = [] ∧ guarded [] (fun n : Nat => [n]) (md [cl 1 "print" []]) 5 = [5] := by
  decide +kernel

/-! ### What is false -/

/-- **C155** is false: a call in a decorator, in a base of a class, in a default of a keyword-only parameter or of a parameter of `lambda`, or in `del e.a` is
not noticed. -/
theorem C155_hidden_counterexample :
    ∀ t ∈ [T.func .nil (ts [cl 1 "locals" []]) .nil, .cls (ts [cl 1 "locals" []]) .nil, .lambda (ts [cl 1 "locals" []]) (nm "x"), .delAttr (cl 1 "locals" [])],
      Asks T.kids t "locals".toList 1 ∧ runAnalyses (md [t]) = ⟨true, []⟩ := by
  intro t ht
  simp only [List.mem_cons, List.not_mem_nil, or_false] at ht
  rcases ht with rfl | rfl | rfl | rfl
  all_goals
    refine ⟨⟨.inl rfl, .nil, .step (u := cl 1 "locals" []) ?_ (.refl _)⟩, by decide +kernel⟩
    simp [T.kids, ts, Ts.list]

/-- **C155** is false: with `f = locals`, `f()` is not noticed. -/
theorem C155_other_name_counterexample : runAnalyses (md [nm "locals", cl 2 "f" []]) = ⟨true, []⟩ := by decide +kernel

/-- **C155** is false: the analysis fails with `def locals(): pass`, `locals()`, although this calls a function of the module. -/
theorem C155_own_counterexample :
    runAnalyses (md [fn [.node .nil], cl 2 "locals" []]) =
      ⟨false, ["call to locals on line 2 in a.py;  unable to determine variable scopes. This may disable some detectors.".toList]⟩ := by decide +kernel

/-- What `is_builtin` asks for, with the names that were visited, all of them of variables of the module. -/
def bound (m : Module) (x : Str) : Bool := (collect m.body).1.contains x

/-- `safe_infer` finds a function with this name. -/
def inferred : Purity.Ex → Option Str
  | .name x => some x
  | _ => none

/-- **C155** is false: a check that does not need the analysis to succeed still uses what was found. With a function `len` of the module, `len(a)` is not taken
for pure; with `locals()` before, it is, so that for `if len(a): …` and `elif not len(a): …` it is reported that the latter always holds
(`edulint/linting/checkers/simplifiable_if.py:1015-1039`). -/
theorem C155_unguarded_counterexample :
    let e : Purity.Ex := .call (.name "len".toList) [.name "a".toList] []
    Purity.isPure (bound (md [fn [.node .nil], cl 4 "len" [nm "a"]])) inferred e = false ∧
    Purity.isPure (bound (md [fn [.node .nil], cl 3 "locals" [], cl 4 "len" [nm "a"]])) inferred e = true := by decide +kernel

end Verif.Analyses
