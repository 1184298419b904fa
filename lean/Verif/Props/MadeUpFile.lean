import Verif.Model.MadeUpFile
import Verif.Props.MadeUp
import Verif.Props.Uses

/-! C139 for executions of files. -/

namespace Verif.Uses

open Verif.Cfg (Event Item Prog Way Whole Calls ValueOf ModuleEnd makeUpCalls lastKill valueOf_iff)
open Verif.Flow (World RunBody Out)

section
variable {F : File} {items : Nat → List Item} {vars : Nat}

theorem module_end (p : Flow.Body) : (Flow.moduleGraph p).locs Flow.Graph.end_ = [] := by
  obtain ⟨ψ, g⟩ := Flow.module_good ⟨fun _ _ => True, fun _ _ => True, true⟩ p
  show (Flow.Graph.linkOrMerge _ _ _).locs _ = []
  rw [Flow.lm_locs, (g.grow.fix _ (by show 1 < 2; omega) (by show 1 ≠ 0; omega)).2]
  rfl

theorem function_end (args : Nat) (p : Flow.Body) : (Flow.functionGraph args p).locs Flow.Graph.end_ = [] := by
  obtain ⟨ψ, g, _⟩ := Flow.function_good ⟨fun _ _ => True, fun _ _ => True, true⟩ args p
  show (Flow.Graph.linkOrMerge _ _ _).locs _ = []
  rw [Flow.lm_locs, (g.grow.fix _ (by show 1 < 2; omega) (by show 1 ≠ 0; omega)).2]
  rfl

theorem function_graph {i args : Nat} {p : Flow.Body} (h : F.functions[i]? = some (args, p)) :
    i < F.graphs.length ∧ F.graph i = Flow.functionGraph args p := by
  obtain ⟨hi, hg⟩ := List.getElem?_eq_some_iff.1 h
  refine ⟨by rw [graphs_length]; omega, ?_⟩
  unfold File.graph File.graphs
  rw [List.getElem?_append_left (by simpa using hi), List.getElem?_map, h]
  rfl

theorem module_graph (F : File) : F.functions.length < F.graphs.length ∧ F.graph F.functions.length = Flow.moduleGraph F.body := by
  refine ⟨by rw [graphs_length]; omega, ?_⟩
  unfold File.graph File.graphs
  rw [List.getElem?_append_right (by simp)]
  simp

/-- Paths are ways. -/
theorem way_of_linked {P : Prog} {s : Nat} : ∀ (rest bs : List Nat) (b : Nat), Way P s bs b → PLinked P (b :: rest) → ∀ (bs' rest' : List Nat) (b' : Nat),
    b :: rest = bs' ++ b' :: rest' → Way P s (bs ++ bs') b'
  | rest, bs, b, hw, hl, [], rest', b', he => by
    simp only [List.nil_append, List.cons.injEq] at he
    rw [List.append_nil, ← he.1]
    exact hw
  | [], bs, b, hw, hl, x :: bs', rest', b', he => by
    simp at he
  | c :: rest, bs, b, hw, hl, x :: bs', rest', b', he => by
    simp only [List.cons_append, List.cons.injEq] at he
    obtain ⟨rfl, he⟩ := he
    have := way_of_linked rest (bs ++ [b]) c (hw.next hl.1) hl.2 bs' rest' b' he
    simpa using this

theorem split_blocks {P : Prog} {it : Item} : ∀ (path : List Nat) {before after : List Item}, path.flatMap P.items = before ++ it :: after →
    ∃ bs b rest k, path = bs ++ b :: rest ∧ (P.items b)[k]? = some it ∧ before = bs.flatMap P.items ++ (P.items b).take k
  | [], before, after, h => by simp at h
  | b :: path, before, after, h => by
    rw [List.flatMap_cons] at h
    rcases List.append_eq_append_iff.1 h with ⟨l, h1, h2⟩ | ⟨l, h1, h2⟩
    · obtain ⟨bs, c, rest, k, h3, h4, h5⟩ := split_blocks path h2
      exact ⟨b :: bs, c, rest, k, by rw [h3]; rfl, h4, by rw [h1, h5]; simp⟩
    · cases l with
      | nil =>
        simp only [List.nil_append] at h2
        obtain ⟨bs, c, rest, k, h3, h4, h5⟩ := split_blocks (before := []) path h2.symm
        exact ⟨b :: bs, c, rest, k, by rw [h3]; rfl, h4, by rw [List.flatMap_cons, List.append_assoc, ← h5, List.append_nil, h1, List.append_nil]⟩
      | cons x l =>
        simp only [List.cons_append, List.cons.injEq] at h2
        obtain ⟨rfl, h2⟩ := h2
        exact ⟨[], b, path, before.length, rfl, by rw [h1]; simp, by rw [h1]; simp⟩

/-- A path to the end of a graph, as a run of it. -/
theorem whole_of_path {i : Nat} (hi : i < F.graphs.length) (hend : (F.graph i).locs Flow.Graph.end_ = []) {path : List Nat} (hp : (F.graph i).IsPath path)
    (hlast : path.getLast? = some Flow.Graph.end_) :
    Whole (F.prog items vars) (F.num i (F.graph i).start) (((F.graph i).along path).flatMap items) := by
  obtain ⟨hs, hl⟩ := hp
  cases path with
  | nil => cases hs
  | cons b path =>
    cases hs
    have hb := path_bound (graph_sane hi) path (graph_sane hi).start hl
    have hlk := plinked_num (inFile (items := items) (vars := vars) hi) _ hb hl
    obtain ⟨bs, hbs⟩ : ∃ bs, (F.graph i).start :: path = bs ++ [Flow.Graph.end_] := List.getLast?_eq_some_iff.1 hlast
    have hemp : (F.prog items vars).locs (F.num i Flow.Graph.end_) = [] := by
      rw [(inFile hi).locs _ (hb _ (by rw [hbs]; simp)), hend]
      rfl
    refine ⟨bs.map (F.num i), F.num i Flow.Graph.end_, ?_, hemp, ?_⟩
    · have := way_of_linked (P := F.prog items vars) (path.map (F.num i)) [] _ .start hlk (bs.map (F.num i)) [] (F.num i Flow.Graph.end_) (by
        rw [← List.map_cons, hbs]
        simp)
      simpa using this
    · rw [← items_along (inFile (items := items) (vars := vars) hi) _ hb, hbs, List.map_append, List.flatMap_append]
      simp [Prog.items, hemp]

/-- What C70 asks of the world and of statements. -/
structure Followed (W : World) (p : Flow.Body) : Prop where
  mild : p.mild = true
  asks : W.asks = true ∨ p.noFor = true
  raises : p.noTry = true ∨ ∀ l x, ¬ W.raises l x

theorem session_whole {W : World} {uncalled : List Nat} (hmod : Followed W F.body)
    (hfun : ∀ i ∈ uncalled, ∀ args p, F.functions[i]? = some (args, p) → Followed W p) {t : List Nat} {done : Bool} (h : Session F W uncalled t done) :
    done = true → ∃ first calls, t.flatMap items = first ++ calls ∧ Whole (F.prog items vars) (F.num F.functions.length (F.graph F.functions.length).start) first ∧
      Calls (F.prog items vars) ((uncalled.map F.uncalled).map (·.start)) calls := by
  induction h with
  | @module tr o hr =>
    intro ho
    obtain ⟨path, h1, -, h3⟩ := Flow.C70_module_partial W F.body hmod.mild hmod.asks hmod.raises tr o hr
    obtain ⟨h4, h5⟩ := h3 (of_decide_eq_true ho)
    obtain ⟨hi, hg⟩ := module_graph F
    rw [← hg] at h1 h5
    refine ⟨tr.flatMap items, [], by simp, ?_, .nil⟩
    rw [← h5]
    exact whole_of_path hi (by rw [hg]; exact module_end _) h1 h4
  | @call t tr o i args p _ hi hfi hr ih =>
    intro ho
    obtain ⟨first, calls, h1, h2, h3⟩ := ih rfl
    have hf := hfun i hi args p hfi
    obtain ⟨path, h4, -, h5⟩ := Flow.C70_function_partial W args p hf.mild hf.asks hf.raises tr o hr
    obtain ⟨h6, h7⟩ := h5 (of_decide_eq_true ho)
    obtain ⟨hlt, hg⟩ := function_graph hfi
    rw [← hg] at h4 h7
    refine ⟨first, calls ++ (args :: tr).flatMap items, by rw [List.flatMap_append, h1, List.append_assoc], h2, .call h3 (s := (F.uncalled i).start) ?_ ?_⟩
    · exact List.mem_map.2 ⟨_, List.mem_map.2 ⟨i, hi, rfl⟩, rfl⟩
    · rw [← h7]
      exact whole_of_path hlt (by rw [hg]; exact function_end _ _) h4 h6

/-- What is used in the first part of what is executed, or in the last one. -/
theorem gives_split {t u : List Nat} {v : Nat} {d e : Event} {x y : Nat} (h : Gives items (t ++ u) v d x e y) :
    Gives items t v d x e y ∨ ∃ before after, u.flatMap items = before ++ .own e :: after ∧ ValueOf v (t.flatMap items ++ before) d := by
  obtain ⟨h1, h2, h3, h4, before, between, after, h5, h6⟩ := h
  have hh : happens items (t ++ u) = happens items t ++ happens items u := by simp [happens]
  rw [hh, show before ++ (x, Item.own d) :: (between ++ (y, Item.own e) :: after) = (before ++ (x, Item.own d) :: between) ++ (y, Item.own e) :: after by simp] at h5
  rcases List.append_eq_append_iff.1 h5 with ⟨l, h7, h8⟩ | ⟨l, h7, h8⟩
  · refine .inr ⟨l.map (·.2), after.map (·.2), ?_, before.map (·.2), between.map (·.2), ?_, h1, h2, ?_⟩
    · rw [← snds, h8]
      simp
    · rw [← snds, ← List.map_append, ← h7]
      simp
    · intro c hc hv
      obtain ⟨q, hq, hqc⟩ := List.mem_map.1 hc
      exact h6 q hq c hqc hv
  · cases l with
    | nil =>
      refine .inr ⟨[], after.map (·.2), ?_, before.map (·.2), between.map (·.2), ?_, h1, h2, ?_⟩
      · rw [← snds, ← List.nil_append (happens items u), ← h8]
        simp
      · rw [← snds, h7]
        simp
      · intro c hc hv
        obtain ⟨q, hq, hqc⟩ := List.mem_map.1 hc
        exact h6 q hq c hqc hv
    | cons z l =>
      simp only [List.cons_append, List.cons.injEq] at h8
      obtain ⟨rfl, h8⟩ := h8
      exact .inl ⟨h1, h2, h3, h4, before, between, l, by rw [h7]; simp, h6⟩

theorem phases_last {P : Prog} {reachable : Nat → Bool} {base : Nat} {starts : List Nat} {phases : List Cfg.Phase} (h : Cfg.Phases P reachable base starts phases)
    {ph : Cfg.Phase} {main : Nat} (hl : phases.getLast? = some ph) (hm : starts.getLast? = some main) : Cfg.Yields P.inner main ph.order := by
  induction h with
  | nil => cases hl
  | @cons base start n starts order phases hy hq hps ih =>
    cases hps with
    | nil =>
      simp only [List.getLast?_singleton, Option.some.injEq] at hl hm
      subst hl hm
      exact hy
    | cons hy' hq' hps' =>
      rw [List.getLast?_cons_cons] at hl hm
      exact ih hl hm

/-- **C139**, for executions: whenever the module is executed and then functions that nothing calls are called, in any order and any number of times, and an event reads
the value that another one has given to a variable of an outer scope (or modifies it), then this is one of its definitions. Missing: functions with a
block that begins with a definition, or that gives the variable a value twice (both are false, see `C139_nested_counterexample` and
`C139_twice_counterexample`), variables that functions that are called may change, and what is missing in C70. -/
theorem C139_executions_partial (hne : F.body.isNil = false) {S : FileScopes} {uncalled : List Nat} {definitions : List (Event × Event)}
    (hdef : F.AllDefinitions items vars S uncalled definitions) {W : World} (hmod : Followed W F.body)
    (hfun : ∀ i ∈ uncalled, ∀ args p, F.functions[i]? = some (args, p) → Followed W p) (hun : ∀ i ∈ uncalled, i < F.functions.length)
    {v : Nat} (hv : v < vars) (hno : ∀ l x, Item.called x ∈ items l → x.var = v → x.type = .read) (hvar : S.var v ∉ uncalled)
    (hblock : ∀ i ∈ uncalled, ∀ b < (F.graph i).count, ∀ l rest, (F.graph i).locs b = l :: rest → S.loc l = i)
    (honce : ∀ i ∈ uncalled, ∀ b < (F.graph i).count, ∀ (j k : Nat) (x y : Event), (((F.graph i).locs b).flatMap items)[j]? = some (.own x) →
      (((F.graph i).locs b).flatMap items)[k]? = some (.own y) → x.var = v → y.var = v → x.type ≠ .read → y.type ≠ .read → j = k)
    {t : List Nat} {done : Bool} (hs : Session F W uncalled t done) {d e : Event} {x y : Nat} (hg : Gives items t v d x e y) : (e, d) ∈ definitions := by
  rcases hdef with ⟨hnil, -⟩ | ⟨-, phases, ph, n, h1, h2, h3, rfl⟩
  · rw [hne] at hnil; cases hnil
  induction hs with
  | @module tr o hr =>
    unfold makeUpCalls
    exact (Cfg.mem_foldl_new _ _).2 (.inl (C92_partial F items vars _ (.inr ⟨hne, phases, h1, rfl⟩) W hmod.mild hmod.asks hmod.raises tr o hr v hv hno d e x y hg))
  | @call t tr o i args p hs hi hfi hr ih =>
    rcases gives_split hg with hg' | ⟨before, after, hb, hval⟩
    · exact ih hg'
    · obtain ⟨he, hd⟩ := hg.var
      obtain ⟨first, calls, h4, h5, h6⟩ := session_whole (items := items) (vars := vars) hmod hfun hs rfl
      have hf := hfun i hi args p hfi
      obtain ⟨path, h7, h8, -⟩ := Flow.C70_function_partial W args p hf.mild hf.asks hf.raises tr o hr
      obtain ⟨hlt, hgr⟩ := function_graph hfi
      rw [← hgr] at h7 h8
      obtain ⟨t', ht'⟩ := h8
      obtain ⟨hs0, hl0⟩ := h7
      cases path with
      | nil => cases hs0
      | cons b path =>
        cases hs0
        have hbd := path_bound (graph_sane hlt) path (graph_sane hlt).start hl0
        have hal := items_along (inFile (items := items) (vars := vars) hlt) _ hbd
        rw [← ht', List.flatMap_append, hb, List.append_assoc, List.cons_append] at hal
        obtain ⟨bs, c, rest, k, h9, h10, h11⟩ := split_blocks _ hal
        have hway := way_of_linked (P := F.prog items vars) (path.map (F.num i)) [] _ .start (plinked_num (inFile (items := items) (vars := vars) hlt) _ hbd hl0) bs rest c h9
        rw [List.nil_append] at hway
        obtain ⟨hmi, hmg⟩ := module_graph F
        have hmain : F.starts.getLast? = some (F.num F.functions.length (F.graph F.functions.length).start) := by
          unfold File.starts
          rw [graphs_length, List.range_succ, List.map_append]
          simp
        subst he
        refine Cfg.C139_definitions_partial (file_graphs hne) h1 (List.mem_of_getLast? hmain)
          ⟨List.mem_of_getLast? h2, phases_last h1 h2 hmain, n, h3, rfl⟩ ?_ (fun b x => no_called hno b x) hv ?_ ?_ ?_ h5 h6 (u := F.uncalled i)
          (List.mem_map.2 ⟨i, hi, rfl⟩) hway (.inl h10) hg.2.2.2.1 ?_
        · intro u hu
          obtain ⟨j, hj, rfl⟩ := List.mem_map.1 hu
          exact mem_starts.2 ⟨j, by rw [graphs_length]; have := hun j hj; omega, rfl⟩
        · intro u hu n hr' hn
          obtain ⟨j, hj, rfl⟩ := List.mem_map.1 hu
          have hjl : j < F.graphs.length := by rw [graphs_length]; have := hun j hj; omega
          obtain ⟨c', rfl, hc', -⟩ := reach_in hjl hr'
          rw [(inFile hjl).locs _ hc'] at hn
          show (match (F.graph (F.which (F.num j c'))).locs (F.block (F.num j c')) with | l :: _ => S.loc l | [] => F.functions.length) = j
          rw [which_num hjl, block_num hjl]
          cases hl : (F.graph j).locs c' with
          | nil => rw [hl] at hn; exact absurd rfl hn
          | cons l rest => exact hblock j hj c' hc' l rest hl
        · intro u hu h
          obtain ⟨j, hj, rfl⟩ := List.mem_map.1 hu
          exact hvar ((show S.var e.var = j from h) ▸ hj)
        · intro u hu n hr' a a' x' y' hx' hy'
          obtain ⟨j, hj, rfl⟩ := List.mem_map.1 hu
          have hjl : j < F.graphs.length := by rw [graphs_length]; have := hun j hj; omega
          obtain ⟨c', rfl, hc', -⟩ := reach_in hjl hr'
          have hit : (F.prog items vars).items (F.num j c') = ((F.graph j).locs c').flatMap items := by
            rw [Prog.items, (inFile hjl).locs _ hc', List.flatMap_def]
          rw [hit] at hx' hy'
          exact honce j hj c' hc' a a' x' y' hx' hy'
        · rw [← h4, List.append_assoc, ← h11]
          exact hval

end

/-! ### Examples -/

/-- `x = 0`, with `def f(): global x; x = 1` and `def g(): print(x)`. -/
def twoFile : File := ⟨[(10, .cons (.simple 11) .nil), (20, .cons (.simple 21) .nil)], .cons (.simple 0) .nil⟩

def twoItems : Nat → List Item
  | 0 => [.own ⟨0, 0, .assign⟩]
  | 11 => [.own ⟨0, 1, .reassign⟩]
  | 21 => [.own ⟨0, 2, .read⟩]
  | _ => []

/-- The functions are 0 and 1, the module is 2. -/
def twoScopes : FileScopes := ⟨fun l => if l < 10 then 2 else if l < 20 then 0 else 1, fun _ => 2⟩

theorem two_once {i b : Nat} (hi : i ∈ [0, 1]) (hb : b < (twoFile.graph i).count) : (((twoFile.graph i).locs b).flatMap twoItems).length ≤ 1 := by
  simp only [List.mem_cons, List.not_mem_nil, or_false] at hi
  rcases hi with rfl | rfl
  · exact (by decide +kernel : ∀ b < (twoFile.graph 0).count, (((twoFile.graph 0).locs b).flatMap twoItems).length ≤ 1) b hb
  · exact (by decide +kernel : ∀ b < (twoFile.graph 1).count, (((twoFile.graph 1).locs b).flatMap twoItems).length ≤ 1) b hb

theorem two_scope {i b l : Nat} {rest : List Nat} (hi : i ∈ [0, 1]) (hb : b < (twoFile.graph i).count) (h : (twoFile.graph i).locs b = l :: rest) : twoScopes.loc l = i := by
  simp only [List.mem_cons, List.not_mem_nil, or_false] at hi
  have hl : l ∈ (twoFile.graph i).locs b := by rw [h]; exact List.mem_cons_self
  rcases hi with rfl | rfl
  · exact (by decide +kernel : ∀ b < (twoFile.graph 0).count, ∀ l ∈ (twoFile.graph 0).locs b, twoScopes.loc l = 0) b hb l hl
  · exact (by decide +kernel : ∀ b < (twoFile.graph 1).count, ∀ l ∈ (twoFile.graph 1).locs b, twoScopes.loc l = 1) b hb l hl

theorem two_session (W : World) : Session twoFile W [0, 1] ([0] ++ [10, 11] ++ [20, 21]) true :=
  .call (o := .normal) (i := 1) (args := 20) (tr := [21])
    (.call (o := .normal) (i := 0) (args := 10) (tr := [11]) (.module (o := .normal) (tr := [0]) (.both (t1 := [0]) (t2 := []) .ok .ok)) (by decide) rfl (.both (t1 := [11]) (t2 := []) .ok .ok))
    (by decide) rfl (.both (t1 := [21]) (t2 := []) .ok .ok)

/-- After the module, `f` is called and then `g`, which reads what `f` wrote. -/
example (definitions : List (Event × Event)) (h : twoFile.AllDefinitions twoItems 1 twoScopes [0, 1] definitions) :
    (⟨0, 2, .read⟩, ⟨0, 1, .reassign⟩) ∈ definitions := by
  refine C139_executions_partial (v := 0) (by decide) h (W := ⟨fun _ _ => False, fun _ _ => True, true⟩) ⟨by decide, .inl rfl, .inl (by decide)⟩ ?_ (by decide) (by decide) ?_
    (by decide) (fun i hi b hb l rest => two_scope hi hb) ?_ (two_session _) (x := 11) (y := 21) ?_
  · intro i hi args p hp
    simp only [List.mem_cons, List.not_mem_nil, or_false] at hi
    rcases hi with rfl | rfl <;> cases hp <;> exact ⟨by decide, .inl rfl, .inl (by decide)⟩
  · intro l x hx
    unfold twoItems at hx
    split at hx <;> simp at hx
  · intro i hi b hb j k x y hj hk _ _ _ _
    have := two_once hi hb
    have := (List.getElem?_eq_some_iff.1 hj).1
    have := (List.getElem?_eq_some_iff.1 hk).1
    omega
  · exact ⟨rfl, by decide, rfl, by decide, [(0, .own ⟨0, 0, .assign⟩)], [], [], by decide, by simp⟩

/-- And these are the definitions that are found. -/
example : twoFile.AllDefinitions twoItems 1 twoScopes [0, 1] [(⟨0, 2, .read⟩, ⟨0, 0, .assign⟩), (⟨0, 2, .read⟩, ⟨0, 1, .reassign⟩)] :=
  .inr ⟨rfl, [⟨0, [0, 6], _⟩, ⟨2, [1, 7], _⟩, ⟨4, [2], _⟩], ⟨4, [2], _⟩, 20,
    .cons (n := 20) ⟨20, by decide +kernel, by decide +kernel⟩ (by decide +kernel)
      (.cons (n := 20) ⟨20, by decide +kernel, by decide +kernel⟩ (by decide +kernel)
        (.cons (n := 20) ⟨20, by decide +kernel, by decide +kernel⟩ (by decide +kernel) .nil)), rfl, by decide +kernel, by decide +kernel⟩

end Verif.Uses
