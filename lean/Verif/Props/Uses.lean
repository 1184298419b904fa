import Verif.Lemmas.UsesFile
import Verif.Lemmas.UsesVar
import Verif.Props.Flow
import Verif.Props.Inside

/-!
**C92**: definitions of what executions read.

Full statement: an event that reads or modifies a variable has as its definitions the events that, in some execution, gave the
variable the value that is read. False where C70 or C71 is false, and for what functions that are called do.

**C93**: variables defined before statements, `get_vars_defined_before`.

Full statement: it has a variable with a node if and only if, in some execution, the value that the variable gets at that node,
outside of the statements, is read or modified in the statements. False where C90 or C92 is false.

**C94**: variables used after statements, `get_vars_used_after`.

Full statement: it has a variable with a node if and only if, in some execution, a value that the variable gets in the statements
is read or modified at that node, outside of the statements. False where C90 or C92 is false.
-/

namespace Verif.Uses

open Verif.Flow
open Verif.Inside (At Inside noWith)
open Verif.Traverse (Loc locAt)
open Verif.Cfg (Event EventType Item Prog Reaching)

variable {F : File} {items : Nat → List Item} {vars : Nat} {definitions : List (Event × Event)}

/-- **C92**, termination: the definitions of a file are found. -/
theorem C92_total (F : File) (items : Nat → List Item) (vars : Nat) : ∃ definitions, F.Definitions items vars definitions := by
  cases hne : F.body.isNil with
  | true => exact ⟨[], .inl ⟨hne, rfl⟩⟩
  | false =>
    obtain ⟨phases, h⟩ := Cfg.C30_terminates (file_graphs (items := items) (vars := vars) hne)
    exact ⟨_, .inr ⟨hne, phases, h, rfl⟩⟩

/-- Functions that are called at most read the variable. -/
theorem no_called {v : Nat} (hno : ∀ l x, Item.called x ∈ items l → x.var = v → x.type = .read) (n : Nat) (x : Event)
    (h : Item.called x ∈ (F.prog items vars).items n) : x.var = v → x.type = .read := by
  unfold Prog.items at h
  obtain ⟨its, h1, h2⟩ := List.mem_flatten.1 h
  obtain ⟨l, -, rfl⟩ := List.mem_map.1 (show its ∈ ((F.graph (F.which n)).locs (F.block n)).map items from h1)
  exact hno l x h2

theorem Gives.var {tr : List Nat} {v : Nat} {d e : Event} {x y : Nat} (h : Gives items tr v d x e y) : e.var = v ∧ d.var = v := ⟨h.2.2.1, h.1⟩

theorem Gives.ends {tr : List Nat} {v : Nat} {d e : Event} {x y : Nat} (h : Gives items tr v d x e y) :
    (x ∈ tr ∧ .own d ∈ items x) ∧ y ∈ tr ∧ .own e ∈ items y := by
  obtain ⟨-, -, -, -, before, between, after, h5, -⟩ := h
  have key : ∀ q ∈ happens items tr, q.1 ∈ tr ∧ q.2 ∈ items q.1 := by
    intro q hq
    obtain ⟨l, hl, h⟩ := List.mem_flatMap.1 hq
    obtain ⟨it, hit, rfl⟩ := List.mem_map.1 h
    exact ⟨hl, hit⟩
  exact ⟨key (x, .own d) (by rw [h5]; simp), key (y, .own e) (by rw [h5]; simp)⟩

theorem found (hne : F.body.isNil = false) (hdef : F.Definitions items vars definitions) {v : Nat}
    (hno : ∀ l x, Item.called x ∈ items l → x.var = v → x.type = .read) (hv : v < vars) {e d : Event} (he : e.var = v) :
    (e, d) ∈ definitions ↔ (e.type = .read ∨ e.type = .modify) ∧ ∃ b k, (((F.prog items vars).items b)[k]? = some (.own e) ∨
      ((F.prog items vars).items b)[k]? = some (.called e)) ∧ Reaching (F.prog items vars) F.starts v d b k := by
  subst he
  rcases hdef with ⟨h, -⟩ | ⟨-, phases, h1, rfl⟩
  · rw [hne] at h; cases h
  · exact Cfg.C30_definitions_partial (file_graphs hne) h1 (fun b x => no_called hno b x) hv

/-- A path of one of the graphs. -/
theorem found_path (hne : F.body.isNil = false) (hdef : F.Definitions items vars definitions) {v : Nat}
    (hno : ∀ l x, Item.called x ∈ items l → x.var = v → x.type = .read) (hv : v < vars) {i : Nat} (hi : i < F.graphs.length) {path tr : List Nat}
    (hp : (F.graph i).IsPath path) (htr : tr <+: (F.graph i).along path) {d e : Event} {x y : Nat} (hg : Gives items tr v d x e y ∨ GivesCalled items tr v d x e y) :
    (e, d) ∈ definitions := by
  rcases hg with hg | hg
  · obtain ⟨h, he, ht⟩ := gives_iff.1 hg
    obtain ⟨b, k, h1, h2⟩ := hands_reaching (inFile hi) (graph_sane hi) hp htr h
    exact (found hne hdef hno hv he).2 ⟨ht, b, k, .inl h1, h2⟩
  · obtain ⟨h, he, ht⟩ := givesCalled_iff.1 hg
    obtain ⟨b, k, h1, h2⟩ := hands_reaching (inFile hi) (graph_sane hi) hp htr h
    exact (found hne hdef hno hv he).2 ⟨ht, b, k, .inr h1, h2⟩

theorem not_nil {W : World} {p : Body} {tr : List Nat} {o : Out} (hr : RunBody W p tr o) {x : Nat} (hx : x ∈ tr) : p.isNil = false := by
  cases p with
  | nil => cases hr <;> cases hx
  | cons => rfl

/-- **C92**, for modules: if in an execution `e` reads the value that `d` gives to a variable, or modifies it, then `d` is one of
the definitions of `e`. Missing: variables that functions that are called may change; programs for which C70 is missing. -/
theorem C92_partial (F : File) (items : Nat → List Item) (vars : Nat) (definitions : List (Event × Event))
    (hdef : F.Definitions items vars definitions) (W : World) (hm : F.body.mild = true) (hf : W.asks = true ∨ F.body.noFor = true)
    (ht : F.body.noTry = true ∨ ∀ l x, ¬ W.raises l x) (tr : List Nat) (o : Out) (hr : RunBody W F.body tr o) (v : Nat)
    (hv : v < vars) (hno : ∀ l x, Item.called x ∈ items l → x.var = v → x.type = .read) (d e : Event) (x y : Nat) (hg : Gives items tr v d x e y) :
    (e, d) ∈ definitions := by
  obtain ⟨path, hp, hpre, -⟩ := C70_module_partial W F.body hm hf ht tr o hr
  obtain ⟨i, hi, hgi⟩ := module_at F
  exact found_path (not_nil hr hg.ends.1.1) hdef hno hv hi (by rw [hgi]; exact hp) (by rw [hgi]; exact hpre) (.inl hg)

/-- **C92**, for functions: the values of parameters are given to them at the location of the arguments. -/
theorem C92_function_partial (F : File) (hne : F.body.isNil = false) (items : Nat → List Item) (vars : Nat)
    (definitions : List (Event × Event)) (hdef : F.Definitions items vars definitions) (args : Nat) (p : Body)
    (hp : (args, p) ∈ F.functions) (W : World) (hm : p.mild = true) (hf : W.asks = true ∨ p.noFor = true)
    (ht : p.noTry = true ∨ ∀ l x, ¬ W.raises l x) (tr : List Nat) (o : Out) (hr : RunBody W p tr o) (v : Nat) (hv : v < vars)
    (hno : ∀ l x, Item.called x ∈ items l → x.var = v → x.type = .read) (d e : Event) (x y : Nat) (hg : Gives items (args :: tr) v d x e y) :
    (e, d) ∈ definitions := by
  obtain ⟨path, hpath, hpre, -⟩ := C70_function_partial W args p hm hf ht tr o hr
  obtain ⟨i, hi, hgi⟩ := function_at hp
  exact found_path hne hdef hno hv hi (by rw [hgi]; exact hpath) (by rw [hgi]; exact hpre) (.inl hg)

theorem GivesCalled.ends {tr : List Nat} {v : Nat} {d e : Event} {x y : Nat} (h : GivesCalled items tr v d x e y) :
    (x ∈ tr ∧ .own d ∈ items x) ∧ y ∈ tr ∧ .called e ∈ items y := by
  obtain ⟨-, -, -, -, before, between, after, h5, -⟩ := h
  have key : ∀ q ∈ happens items tr, q.1 ∈ tr ∧ q.2 ∈ items q.1 := by
    intro q hq
    obtain ⟨l, hl, h⟩ := List.mem_flatMap.1 hq
    obtain ⟨it, hit, rfl⟩ := List.mem_map.1 h
    exact ⟨hl, hit⟩
  exact ⟨key (x, .own d) (by rw [h5]; simp), key (y, .called e) (by rw [h5]; simp)⟩

/-- **C92**, for calls in modules: if in an execution `d` gives a value to a variable, and `e` in a function that is then called reads it, then `d` is
one of the definitions of `e`. -/
theorem C92_called_partial (F : File) (items : Nat → List Item) (vars : Nat) (definitions : List (Event × Event))
    (hdef : F.Definitions items vars definitions) (W : World) (hm : F.body.mild = true) (hf : W.asks = true ∨ F.body.noFor = true)
    (ht : F.body.noTry = true ∨ ∀ l x, ¬ W.raises l x) (tr : List Nat) (o : Out) (hr : RunBody W F.body tr o) (v : Nat)
    (hv : v < vars) (hno : ∀ l x, Item.called x ∈ items l → x.var = v → x.type = .read) (d e : Event) (x y : Nat)
    (hg : GivesCalled items tr v d x e y) : (e, d) ∈ definitions := by
  obtain ⟨path, hp, hpre, -⟩ := C70_module_partial W F.body hm hf ht tr o hr
  obtain ⟨i, hi, hgi⟩ := module_at F
  exact found_path (not_nil hr hg.ends.1.1) hdef hno hv hi (by rw [hgi]; exact hp) (by rw [hgi]; exact hpre) (.inr hg)

/-- **C92**, for calls in functions. -/
theorem C92_called_function_partial (F : File) (hne : F.body.isNil = false) (items : Nat → List Item) (vars : Nat)
    (definitions : List (Event × Event)) (hdef : F.Definitions items vars definitions) (args : Nat) (p : Body)
    (hp : (args, p) ∈ F.functions) (W : World) (hm : p.mild = true) (hf : W.asks = true ∨ p.noFor = true)
    (ht : p.noTry = true ∨ ∀ l x, ¬ W.raises l x) (tr : List Nat) (o : Out) (hr : RunBody W p tr o) (v : Nat) (hv : v < vars)
    (hno : ∀ l x, Item.called x ∈ items l → x.var = v → x.type = .read) (d e : Event) (x y : Nat)
    (hg : GivesCalled items (args :: tr) v d x e y) : (e, d) ∈ definitions := by
  obtain ⟨path, hpath, hpre, -⟩ := C70_function_partial W args p hm hf ht tr o hr
  obtain ⟨i, hi, hgi⟩ := function_at hp
  exact found_path hne hdef hno hv hi (by rw [hgi]; exact hpath) (by rw [hgi]; exact hpre) (.inr hg)

/-- **C92**, the other direction: if `d` is one of the definitions of `e`, then there is an execution of the module or of a
function in which `e` reads the value that `d` gives to the variable, or modifies it, or in which this happens in a function that is called. Missing: files with `try`, and those for which
C71 is missing. -/
theorem C92_possible_partial (F : File) (items : Nat → List Item) (vars : Nat) (definitions : List (Event × Event))
    (hdef : F.Definitions items vars definitions) (W : World) (hm : F.body.noTry = true) (hf : W.asks = true ∨ F.body.noFor = true)
    (hms : ∀ f ∈ F.functions, f.2.noTry = true) (hfs : W.asks = true ∨ ∀ f ∈ F.functions, f.2.noFor = true)
    (d e : Event) (hv : e.var < vars) (hno : ∀ l x, Item.called x ∈ items l → x.var = e.var → x.type = .read) (h : (e, d) ∈ definitions) :
    (∃ tr x y, RunBody W F.body tr .cut ∧ (Gives items tr e.var d x e y ∨ GivesCalled items tr e.var d x e y)) ∨
      ∃ f ∈ F.functions, ∃ tr x y, RunBody W f.2 tr .cut ∧
        (Gives items (f.1 :: tr) e.var d x e y ∨ GivesCalled items (f.1 :: tr) e.var d x e y) := by
  cases hne : F.body.isNil with
  | true =>
    rcases hdef with ⟨-, rfl⟩ | ⟨h1, -⟩
    · cases h
    · rw [hne] at h1; cases h1
  | false =>
    obtain ⟨ht, b, k, hget, hr⟩ := (found hne hdef hno hv rfl).1 h
    have hever : Cfg.Ever (F.prog items vars) F.starts b := by
      clear hget
      induction hr with
      | gen h => exact h
      | skip _ _ _ ih => exact ih
      | edge _ hc ih =>
        obtain ⟨s, hs, h⟩ := ih
        exact ⟨s, hs, h.next hc⟩
    obtain ⟨s, hs, hreach⟩ := hever
    obtain ⟨i, hi, rfl⟩ := mem_starts.1 hs
    obtain ⟨c, rfl, hc, -⟩ := reach_in hi hreach
    obtain ⟨path, x, y, hp, hg⟩ : ∃ path x y, (F.graph i).IsPath path ∧ (Gives items ((F.graph i).along path) e.var d x e y ∨
        GivesCalled items ((F.graph i).along path) e.var d x e y) := by
      rcases hget with hget | hget
      · obtain ⟨path, x, y, hp, hg⟩ := reaching_hands (inFile hi) (graph_sane hi) (fun b x => no_called hno b x) hget
          (fun s hs h => only hi hs h) hr
        exact ⟨path, x, y, hp, .inl (gives_iff.2 ⟨hg, rfl, ht⟩)⟩
      · obtain ⟨path, x, y, hp, hg⟩ := reaching_hands (inFile hi) (graph_sane hi) (fun b x => no_called hno b x) hget
          (fun s hs h => only hi hs h) hr
        exact ⟨path, x, y, hp, .inr (givesCalled_iff.2 ⟨hg, rfl, ht⟩)⟩
    rcases graph_of hi with ⟨f, hff, hgi⟩ | hgi
    · right
      rw [hgi] at hp hg
      obtain ⟨tr, h1, h2⟩ := C71_function_partial W f.1 f.2 (hms f hff) (hfs.imp id (fun h => h f hff)) path hp
      rw [← h1] at hg
      exact ⟨f, hff, tr, x, y, h2, hg⟩
    · left
      rw [hgi] at hp hg
      exact ⟨_, x, y, C71_module_partial W F.body hm hf path hp, hg⟩

/-- If functions that are called do nothing to the variable, there is an execution that does not involve them. -/
theorem possible_own (hdef : F.Definitions items vars definitions) {W : World} (hm : F.body.noTry = true)
    (hf : W.asks = true ∨ F.body.noFor = true) (hms : ∀ f ∈ F.functions, f.2.noTry = true)
    (hfs : W.asks = true ∨ ∀ f ∈ F.functions, f.2.noFor = true) {d e : Event} (hv : e.var < vars)
    (hno : ∀ l x, Item.called x ∈ items l → x.var ≠ e.var) (h : (e, d) ∈ definitions) :
    (∃ tr x y, RunBody W F.body tr .cut ∧ Gives items tr e.var d x e y) ∨
      ∃ f ∈ F.functions, ∃ tr x y, RunBody W f.2 tr .cut ∧ Gives items (f.1 :: tr) e.var d x e y := by
  rcases C92_possible_partial F items vars definitions hdef W hm hf hms hfs d e hv (fun l x hx h => absurd h (hno l x hx)) h with
    ⟨tr, x, y, hr, hg⟩ | ⟨f, hff, tr, x, y, hr, hg⟩
  · rcases hg with hg | hg
    · exact .inl ⟨tr, x, y, hr, hg⟩
    · exact absurd rfl (hno y e hg.ends.2.2)
  · rcases hg with hg | hg
    · exact .inr ⟨f, hff, tr, x, y, hr, hg⟩
    · exact absurd rfl (hno y e hg.ends.2.2)

/-! ### Before and after statements -/

theorem mem_labels {g : Graph} {locs : List Loc} {l : Nat} : l ∈ labels g locs ↔ ∃ x ∈ locs, locAt g x = some l := List.mem_filterMap

theorem mem_own {its : List Item} {e : Event} : e ∈ ownEvents its ↔ .own e ∈ its := by
  induction its with
  | nil => exact ⟨(fun h => nomatch h), (fun h => nomatch h)⟩
  | cons it its ih =>
    cases it with
    | own c => simp only [ownEvents, List.mem_cons, ih, Item.own.injEq]
    | called c => simp only [ownEvents, List.mem_cons, ih, reduceCtorEq, false_or]

theorem mem_usesOf {d e : Event} : e ∈ usesOf definitions d ↔ (e, d) ∈ definitions := by
  unfold usesOf
  rw [List.mem_map]
  constructor
  · rintro ⟨⟨a, c⟩, h, rfl⟩
    obtain ⟨h1, h2⟩ := List.mem_filter.1 h
    have h2 : c = d := eq_of_beq h2
    exact h2 ▸ h1
  · exact fun h => ⟨(e, d), List.mem_filter.2 ⟨h, by simp⟩, rfl⟩

theorem mem_definitionsOf {d e : Event} : d ∈ definitionsOf definitions e ↔ (e, d) ∈ definitions := by
  unfold definitionsOf
  rw [List.mem_map]
  constructor
  · rintro ⟨⟨a, c⟩, h, rfl⟩
    obtain ⟨h1, h2⟩ := List.mem_filter.1 h
    have h2 : a = e := eq_of_beq h2
    exact h2 ▸ h1
  · exact fun h => ⟨(e, d), List.mem_filter.2 ⟨h, by simp⟩, rfl⟩

theorem mem_after {g : Graph} {home : Nat → Nat} {locs : List Loc} {v n : Nat} :
    (v, n) ∈ ((labels g locs).flatMap fun l => (ownEvents (items l)).flatMap fun d =>
      ((usesOf definitions d).filter fun e => e.type != .assign && e.type != .reassign && !(labels g locs).contains (home e.node)).map
        fun e => (d.var, e.node)) ↔
    ∃ l ∈ labels g locs, ∃ d e : Event, .own d ∈ items l ∧ (e, d) ∈ definitions ∧ e.type ≠ .assign ∧ e.type ≠ .reassign ∧
      home e.node ∉ labels g locs ∧ d.var = v ∧ e.node = n := by
  simp only [List.mem_flatMap, List.mem_map, List.mem_filter, mem_own, mem_usesOf, Bool.and_eq_true, bne_iff_ne, Bool.not_eq_true',
    Prod.mk.injEq, List.contains_eq_mem, decide_eq_false_iff_not]
  constructor
  · rintro ⟨l, h1, d, h2, e, ⟨h3, ⟨h4, h5⟩, h6⟩, h7, h8⟩
    exact ⟨l, h1, d, e, h2, h3, h4, h5, h6, h7, h8⟩
  · rintro ⟨l, h1, d, e, h2, h3, h4, h5, h6, h7, h8⟩
    exact ⟨l, h1, d, h2, e, ⟨h3, ⟨h4, h5⟩, h6⟩, h7, h8⟩

theorem mem_before {g : Graph} {home : Nat → Nat} {locs : List Loc} {v n : Nat} :
    (v, n) ∈ ((labels g locs).flatMap fun l => (ownEvents (items l)).flatMap fun e =>
      ((definitionsOf definitions e).filter fun d => !(labels g locs).contains (home d.node)).map fun d => (e.var, d.node)) ↔
    ∃ l ∈ labels g locs, ∃ d e : Event, .own e ∈ items l ∧ (e, d) ∈ definitions ∧ home d.node ∉ labels g locs ∧ e.var = v ∧ d.node = n := by
  simp only [List.mem_flatMap, List.mem_map, List.mem_filter, mem_own, mem_definitionsOf, Bool.not_eq_true', Prod.mk.injEq,
    List.contains_eq_mem, decide_eq_false_iff_not]
  constructor
  · rintro ⟨l, h1, e, h2, d, ⟨h3, h6⟩, h7, h8⟩
    exact ⟨l, h1, d, e, h2, h3, h6, h7, h8⟩
  · rintro ⟨l, h1, d, e, h2, h3, h6, h7, h8⟩
    exact ⟨l, h1, e, h2, d, ⟨h3, h6⟩, h7, h8⟩

theorem not_assign {tr : List Nat} {v : Nat} {d e : Event} {x y : Nat} (h : Gives items tr v d x e y) : e.type ≠ .assign ∧ e.type ≠ .reassign := by
  rcases h.2.2.2.1 with h | h <;> rw [h] <;> decide

/-- **C94**, for modules: if in an execution a value that a variable gets in the statements is read or modified outside of them,
then `get_vars_used_after` has the variable with the node where that happens. Missing: programs and statements for which C90 or C92
is missing. -/
theorem C94_partial (F : File) (items : Nat → List Item) (vars : Nat) (definitions : List (Event × Event))
    (hdef : F.Definitions items vars definitions) (home : Nat → Nat) (hh : ∀ l e, Item.own e ∈ items l → home e.node = l) (W : World)
    (b : Body) (f : Bool) (hat : At b true F.body f) (hwith : f = true ∨ noWith b = true) (hm : F.body.mild = true)
    (hf : W.asks = true ∨ F.body.noFor = true) (ht : F.body.noTry = true ∨ ∀ l x, ¬ W.raises l x) (hfin : F.body.noFinally = true)
    (hd : F.body.locations.Nodup) (result : List (Nat × Nat)) (h : UsedAfter (moduleGraph F.body) items definitions home b result)
    (tr : List Nat) (o : Out) (hr : RunBody W F.body tr o) (v : Nat) (hv : v < vars)
    (hno : ∀ l x, Item.called x ∈ items l → x.var = v → x.type = .read) (d e : Event) (x y : Nat) (hg : Gives items tr v d x e y)
    (hx : x ∈ b.locations) (hy : y ∉ b.locations) : (v, e.node) ∈ result := by
  obtain ⟨locs, h1, rfl⟩ := h
  obtain ⟨⟨hxt, hxi⟩, hyt, hyi⟩ := hg.ends
  refine mem_after.2 ⟨x, mem_labels.2 (Inside.C90_partial W F.body b f hat hwith hm hf ht hfin hd locs h1 tr o hr x hxt hx), d, e, hxi,
    C92_partial F items vars definitions hdef W hm hf ht tr o hr v hv hno d e x y hg, (not_assign hg).1, (not_assign hg).2, ?_, hg.var.2, rfl⟩
  rw [hh y e hyi]
  intro hc
  obtain ⟨q, hq, hql⟩ := mem_labels.1 hc
  obtain ⟨l, hl, hb⟩ := (Inside.C90_sound_partial F.body b f hat hfin hd locs h1).2 q hq
  rw [hql] at hl
  cases hl
  exact hy hb

/-- **C94**, for functions. -/
theorem C94_function_partial (F : File) (hne : F.body.isNil = false) (items : Nat → List Item) (vars : Nat)
    (definitions : List (Event × Event)) (hdef : F.Definitions items vars definitions) (home : Nat → Nat)
    (hh : ∀ l e, Item.own e ∈ items l → home e.node = l) (args : Nat) (p : Body) (hp : (args, p) ∈ F.functions) (W : World) (b : Body)
    (f : Bool) (hat : At b true p f) (hwith : f = true ∨ noWith b = true) (hm : p.mild = true) (hf : W.asks = true ∨ p.noFor = true)
    (ht : p.noTry = true ∨ ∀ l x, ¬ W.raises l x) (hfin : p.noFinally = true) (hd : (args :: p.locations).Nodup)
    (result : List (Nat × Nat)) (h : UsedAfter (functionGraph args p) items definitions home b result) (tr : List Nat) (o : Out)
    (hr : RunBody W p tr o) (v : Nat) (hv : v < vars) (hno : ∀ l x, Item.called x ∈ items l → x.var = v → x.type = .read) (d e : Event) (x y : Nat)
    (hg : Gives items (args :: tr) v d x e y) (hx : x ∈ b.locations) (hy : y ∉ b.locations) : (v, e.node) ∈ result := by
  obtain ⟨locs, h1, rfl⟩ := h
  obtain ⟨⟨hxt, hxi⟩, hyt, hyi⟩ := hg.ends
  have hxt' : x ∈ tr := by
    rcases List.mem_cons.1 hxt with e | h
    · exact absurd (e ▸ hat.sublist.subset hx) (List.nodup_cons.1 hd).1
    · exact h
  refine mem_after.2 ⟨x, mem_labels.2 (Inside.C90_function_partial W args p b f hat hwith hm hf ht hfin hd locs h1 tr o hr x hxt' hx), d, e, hxi,
    C92_function_partial F hne items vars definitions hdef args p hp W hm hf ht tr o hr v hv hno d e x y hg, (not_assign hg).1,
    (not_assign hg).2, ?_, hg.var.2, rfl⟩
  rw [hh y e hyi]
  intro hc
  obtain ⟨q, hq, hql⟩ := mem_labels.1 hc
  obtain ⟨l, hl, hb⟩ := (Inside.C90_sound_function_partial args p b f hat hfin hd locs h1).2 q hq
  rw [hql] at hl
  cases hl
  exact hy hb

/-- **C93**, for modules: if in an execution a value that a variable gets outside of the statements is read or modified in them,
then `get_vars_defined_before` has the variable with the node where it gets the value. Missing: programs and statements for which C90
or C92 is missing. -/
theorem C93_partial (F : File) (items : Nat → List Item) (vars : Nat) (definitions : List (Event × Event))
    (hdef : F.Definitions items vars definitions) (home : Nat → Nat) (hh : ∀ l e, Item.own e ∈ items l → home e.node = l) (W : World)
    (b : Body) (f : Bool) (hat : At b true F.body f) (hwith : f = true ∨ noWith b = true) (hm : F.body.mild = true)
    (hf : W.asks = true ∨ F.body.noFor = true) (ht : F.body.noTry = true ∨ ∀ l x, ¬ W.raises l x) (hfin : F.body.noFinally = true)
    (hd : F.body.locations.Nodup) (result : List (Nat × Nat)) (h : DefinedBefore (moduleGraph F.body) items definitions home b result)
    (tr : List Nat) (o : Out) (hr : RunBody W F.body tr o) (v : Nat) (hv : v < vars)
    (hno : ∀ l x, Item.called x ∈ items l → x.var = v → x.type = .read) (d e : Event) (x y : Nat) (hg : Gives items tr v d x e y)
    (hx : x ∉ b.locations) (hy : y ∈ b.locations) : (v, d.node) ∈ result := by
  obtain ⟨locs, h1, rfl⟩ := h
  obtain ⟨⟨hxt, hxi⟩, hyt, hyi⟩ := hg.ends
  refine mem_before.2 ⟨y, mem_labels.2 (Inside.C90_partial W F.body b f hat hwith hm hf ht hfin hd locs h1 tr o hr y hyt hy), d, e, hyi,
    C92_partial F items vars definitions hdef W hm hf ht tr o hr v hv hno d e x y hg, ?_, hg.var.1, rfl⟩
  rw [hh x d hxi]
  intro hc
  obtain ⟨q, hq, hql⟩ := mem_labels.1 hc
  obtain ⟨l, hl, hb⟩ := (Inside.C90_sound_partial F.body b f hat hfin hd locs h1).2 q hq
  rw [hql] at hl
  cases hl
  exact hx hb

/-- **C93**, for functions. -/
theorem C93_function_partial (F : File) (hne : F.body.isNil = false) (items : Nat → List Item) (vars : Nat)
    (definitions : List (Event × Event)) (hdef : F.Definitions items vars definitions) (home : Nat → Nat)
    (hh : ∀ l e, Item.own e ∈ items l → home e.node = l) (args : Nat) (p : Body) (hp : (args, p) ∈ F.functions) (W : World) (b : Body)
    (f : Bool) (hat : At b true p f) (hwith : f = true ∨ noWith b = true) (hm : p.mild = true) (hf : W.asks = true ∨ p.noFor = true)
    (ht : p.noTry = true ∨ ∀ l x, ¬ W.raises l x) (hfin : p.noFinally = true) (hd : (args :: p.locations).Nodup)
    (result : List (Nat × Nat)) (h : DefinedBefore (functionGraph args p) items definitions home b result) (tr : List Nat) (o : Out)
    (hr : RunBody W p tr o) (v : Nat) (hv : v < vars) (hno : ∀ l x, Item.called x ∈ items l → x.var = v → x.type = .read) (d e : Event) (x y : Nat)
    (hg : Gives items (args :: tr) v d x e y) (hx : x ∉ b.locations) (hy : y ∈ b.locations) : (v, d.node) ∈ result := by
  obtain ⟨locs, h1, rfl⟩ := h
  obtain ⟨⟨hxt, hxi⟩, hyt, hyi⟩ := hg.ends
  have hyt' : y ∈ tr := by
    rcases List.mem_cons.1 hyt with e | h
    · exact absurd (e ▸ hat.sublist.subset hy) (List.nodup_cons.1 hd).1
    · exact h
  refine mem_before.2 ⟨y, mem_labels.2 (Inside.C90_function_partial W args p b f hat hwith hm hf ht hfin hd locs h1 tr o hr y hyt' hy), d, e, hyi,
    C92_function_partial F hne items vars definitions hdef args p hp W hm hf ht tr o hr v hv hno d e x y hg, ?_, hg.var.1, rfl⟩
  rw [hh x d hxi]
  intro hc
  obtain ⟨q, hq, hql⟩ := mem_labels.1 hc
  obtain ⟨l, hl, hb⟩ := (Inside.C90_sound_function_partial args p b f hat hfin hd locs h1).2 q hq
  rw [hql] at hl
  cases hl
  exact hx hb

/-! ### The other direction -/

mutual
theorem stmt_noFinally : ∀ s : Stmt, s.noTry = true → s.noFinally = true
  | .simple _, _ => rfl
  | .jump _ _, _ => rfl
  | .cond _ b e, h => by
    simp only [Stmt.noTry, Bool.and_eq_true] at h
    simp only [Stmt.noFinally, Bool.and_eq_true]; exact ⟨body_noFinally b h.1, body_noFinally e h.2⟩
  | .loop _ b e, h => by
    simp only [Stmt.noTry, Bool.and_eq_true] at h
    simp only [Stmt.noFinally, Bool.and_eq_true]; exact ⟨body_noFinally b h.1, body_noFinally e h.2⟩
  | .each _ _ b e, h => by
    simp only [Stmt.noTry, Bool.and_eq_true] at h
    simp only [Stmt.noFinally, Bool.and_eq_true]; exact ⟨body_noFinally b h.1, body_noFinally e h.2⟩
  | .enter _ _ b, h => body_noFinally b h
  | .try_ _ _ _ _ _, h => by cases h
theorem body_noFinally : ∀ p : Body, p.noTry = true → p.noFinally = true
  | .nil, _ => rfl
  | .cons s rest, h => by
    simp only [Body.noTry, Bool.and_eq_true] at h
    simp only [Body.noFinally, Bool.and_eq_true]; exact ⟨stmt_noFinally s h.1, body_noFinally rest h.2⟩
end

theorem definitions_alike (hdef : F.Definitions items vars definitions) {e d : Event} (h : (e, d) ∈ definitions) : e.var = d.var := by
  rcases hdef with ⟨-, rfl⟩ | ⟨-, phases, -, rfl⟩
  · cases h
  · exact Cfg.links_alike _ _ _ h

/-- What an execution comes by is in the statements. -/
theorem run_in {W : World} {p : Body} {tr : List Nat} {o : Out} (hr : RunBody W p tr o) {l : Nat} (hl : l ∈ tr) : l ∈ p.locations :=
  Inside.body_among W p tr o hr l hl

/-- A location of the module is in no function. -/
theorem apart_module (hd : F.locations.Nodup) {f : Nat × Body} (hf : f ∈ F.functions) {l : Nat} (h : l ∈ F.body.locations) :
    l ∉ f.1 :: f.2.locations := fun h' =>
  (List.nodup_append.1 hd).2.2 l (List.mem_flatMap.2 ⟨f, hf, h'⟩) l h rfl

/-- A location of a function is in no other function. -/
theorem apart_function : ∀ {fs : List (Nat × Body)}, (fs.flatMap fun f => f.1 :: f.2.locations).Nodup → ∀ {f f' : Nat × Body}, f ∈ fs → f' ∈ fs →
    ∀ {l : Nat}, l ∈ f.1 :: f.2.locations → l ∈ f'.1 :: f'.2.locations → f = f'
  | [], _, _, _, hf, _, _, _, _ => nomatch hf
  | g :: fs, hd, f, f', hf, hf', l, hl, hl' => by
    rw [List.flatMap_cons] at hd
    obtain ⟨h1, h2, h3⟩ := List.nodup_append.1 hd
    rcases List.mem_cons.1 hf with e | m
    · rcases List.mem_cons.1 hf' with e' | m'
      · rw [e, e']
      · exact absurd rfl (h3 l (e ▸ hl) l (List.mem_flatMap.2 ⟨f', m', hl'⟩))
    · rcases List.mem_cons.1 hf' with e' | m'
      · exact absurd rfl (h3 l (e' ▸ hl') l (List.mem_flatMap.2 ⟨f, m, hl⟩))
      · exact apart_function h2 m m' hl hl'

/-- A definition of an event at a location of the module, or an event defined there. -/
theorem possible_module (hdef : F.Definitions items vars definitions) {W : World} (hm : F.body.noTry = true)
    (hf : W.asks = true ∨ F.body.noFor = true) (hms : ∀ f ∈ F.functions, f.2.noTry = true)
    (hfs : W.asks = true ∨ ∀ f ∈ F.functions, f.2.noFor = true) (hd : F.locations.Nodup) {d e : Event} (hv : e.var < vars)
    (hno : ∀ l x, Item.called x ∈ items l → x.var ≠ e.var) (h : (e, d) ∈ definitions) {home : Nat → Nat}
    (hh : ∀ l e, Item.own e ∈ items l → home e.node = l) (hin : home e.node ∈ F.body.locations ∨ home d.node ∈ F.body.locations) :
    ∃ tr, RunBody W F.body tr .cut ∧ Gives items tr e.var d (home d.node) e (home e.node) := by
  rcases possible_own hdef hm hf hms hfs hv hno h with ⟨tr, x, y, hr, hg⟩ | ⟨f, hff, tr, x, y, hr, hg⟩
  · obtain ⟨⟨-, h1⟩, -, h2⟩ := hg.ends
    rw [hh x d h1, hh y e h2]
    exact ⟨tr, hr, hg⟩
  · obtain ⟨⟨h1, h2⟩, h3, h4⟩ := hg.ends
    rw [hh x d h2, hh y e h4] at hin
    have key : ∀ l ∈ f.1 :: tr, l ∈ f.1 :: f.2.locations := by
      intro l hl
      rcases List.mem_cons.1 hl with rfl | hl
      · exact List.mem_cons_self
      · exact List.mem_cons_of_mem _ (run_in hr hl)
    rcases hin with hin | hin
    · exact absurd (key y h3) (apart_module hd hff hin)
    · exact absurd (key x h1) (apart_module hd hff hin)

theorem possible_function (hdef : F.Definitions items vars definitions) {W : World} (hm : F.body.noTry = true)
    (hf : W.asks = true ∨ F.body.noFor = true) (hms : ∀ f ∈ F.functions, f.2.noTry = true)
    (hfs : W.asks = true ∨ ∀ f ∈ F.functions, f.2.noFor = true) (hd : F.locations.Nodup) {d e : Event} (hv : e.var < vars)
    (hno : ∀ l x, Item.called x ∈ items l → x.var ≠ e.var) (h : (e, d) ∈ definitions) {home : Nat → Nat}
    (hh : ∀ l e, Item.own e ∈ items l → home e.node = l) {args : Nat} {p : Body} (hp : (args, p) ∈ F.functions)
    (hin : home e.node ∈ args :: p.locations ∨ home d.node ∈ args :: p.locations) :
    ∃ tr, RunBody W p tr .cut ∧ Gives items (args :: tr) e.var d (home d.node) e (home e.node) := by
  rcases possible_own hdef hm hf hms hfs hv hno h with ⟨tr, x, y, hr, hg⟩ | ⟨f, hff, tr, x, y, hr, hg⟩
  · obtain ⟨⟨h1, h2⟩, h3, h4⟩ := hg.ends
    rw [hh x d h2, hh y e h4] at hin
    rcases hin with hin | hin
    · exact absurd hin (apart_module hd hp (run_in hr h3))
    · exact absurd hin (apart_module hd hp (run_in hr h1))
  · obtain ⟨⟨h1, h2⟩, h3, h4⟩ := hg.ends
    rw [hh x d h2, hh y e h4] at hin ⊢
    have key : ∀ l ∈ f.1 :: tr, l ∈ f.1 :: f.2.locations := by
      intro l hl
      rcases List.mem_cons.1 hl with rfl | hl
      · exact List.mem_cons_self
      · exact List.mem_cons_of_mem _ (run_in hr hl)
    have : f = (args, p) := by
      rcases hin with hin | hin
      · exact apart_function (List.nodup_append.1 hd).1 hff hp (key y h3) hin
      · exact apart_function (List.nodup_append.1 hd).1 hff hp (key x h1) hin
    subst this
    exact ⟨tr, hr, hg⟩

theorem function_nodup (hd : F.locations.Nodup) {args : Nat} {p : Body} (hp : (args, p) ∈ F.functions) : (args :: p.locations).Nodup := by
  obtain ⟨s, t, h⟩ := List.append_of_mem hp
  have := (List.nodup_append.1 hd).1
  rw [h, List.flatMap_append, List.flatMap_cons] at this
  exact (List.nodup_append.1 (List.nodup_append.1 this).2.1).1

/-- **C94**, the other direction: if `get_vars_used_after` has a variable with a node, then there is an execution in which a value
that the variable gets in the statements is read or modified at that node, outside of them. Missing: files with `try`, and what is
missing for C71, C90 and C92. -/
theorem C94_possible_partial (F : File) (items : Nat → List Item) (vars : Nat) (definitions : List (Event × Event))
    (hdef : F.Definitions items vars definitions) (home : Nat → Nat) (hh : ∀ l e, Item.own e ∈ items l → home e.node = l) (W : World)
    (b : Body) (f : Bool) (hat : At b true F.body f) (hwith : f = true ∨ noWith b = true) (hm : F.body.noTry = true)
    (hf : W.asks = true ∨ F.body.noFor = true) (hms : ∀ f ∈ F.functions, f.2.noTry = true)
    (hfs : W.asks = true ∨ ∀ f ∈ F.functions, f.2.noFor = true) (hd : F.locations.Nodup) (result : List (Nat × Nat))
    (h : UsedAfter (moduleGraph F.body) items definitions home b result) (v n : Nat) (hv : v < vars)
    (hno : ∀ l x, Item.called x ∈ items l → x.var ≠ v) (hmem : (v, n) ∈ result) :
    ∃ tr d x e y, RunBody W F.body tr .cut ∧ Gives items tr v d x e y ∧ x ∈ b.locations ∧ y ∉ b.locations ∧ e.node = n := by
  obtain ⟨locs, h1, rfl⟩ := h
  obtain ⟨l, hl, d, e, h2, h3, -, -, h4, rfl, rfl⟩ := mem_after.1 hmem
  have hfin := body_noFinally _ hm
  have hdm := (List.nodup_append.1 hd).2.1
  have hve := definitions_alike hdef h3
  obtain ⟨q, hq, hql⟩ := mem_labels.1 hl
  obtain ⟨l', hl', hb⟩ := (Inside.C90_sound_partial F.body b f hat hfin hdm locs h1).2 q hq
  rw [hql] at hl'
  cases hl'
  rw [← hve] at hv hno ⊢
  have hhd := hh l d h2
  obtain ⟨tr, hr, hg⟩ := possible_module hdef hm hf hms hfs hd hv hno h3 hh (.inr (hhd ▸ hat.sublist.subset hb))
  refine ⟨tr, d, _, e, _, hr, hg, hhd ▸ hb, fun hy => h4 ?_, rfl⟩
  exact mem_labels.2 (Inside.C90_partial W F.body b f hat hwith (body_mild _ hm) hf (.inl hm) hfin hdm locs h1 tr _ hr _ hg.ends.2.1 hy)

/-- **C94**, the other direction, for functions. -/
theorem C94_possible_function_partial (F : File) (items : Nat → List Item) (vars : Nat) (definitions : List (Event × Event))
    (hdef : F.Definitions items vars definitions) (home : Nat → Nat) (hh : ∀ l e, Item.own e ∈ items l → home e.node = l) (W : World)
    (args : Nat) (p : Body) (hp : (args, p) ∈ F.functions) (b : Body) (f : Bool) (hat : At b true p f)
    (hwith : f = true ∨ noWith b = true) (hm : F.body.noTry = true) (hf : W.asks = true ∨ F.body.noFor = true)
    (hms : ∀ f ∈ F.functions, f.2.noTry = true) (hfs : W.asks = true ∨ ∀ f ∈ F.functions, f.2.noFor = true) (hd : F.locations.Nodup)
    (result : List (Nat × Nat)) (h : UsedAfter (functionGraph args p) items definitions home b result) (v n : Nat) (hv : v < vars)
    (hno : ∀ l x, Item.called x ∈ items l → x.var ≠ v) (hmem : (v, n) ∈ result) :
    ∃ tr d x e y, RunBody W p tr .cut ∧ Gives items (args :: tr) v d x e y ∧ x ∈ b.locations ∧ y ∉ b.locations ∧ e.node = n := by
  obtain ⟨locs, h1, rfl⟩ := h
  obtain ⟨l, hl, d, e, h2, h3, -, -, h4, rfl, rfl⟩ := mem_after.1 hmem
  have hfin := body_noFinally _ (hms _ hp)
  have hdm := function_nodup hd hp
  have hve := definitions_alike hdef h3
  obtain ⟨q, hq, hql⟩ := mem_labels.1 hl
  obtain ⟨l', hl', hb⟩ := (Inside.C90_sound_function_partial args p b f hat hfin hdm locs h1).2 q hq
  rw [hql] at hl'
  cases hl'
  rw [← hve] at hv hno ⊢
  have hhd := hh l d h2
  obtain ⟨tr, hr, hg⟩ := possible_function hdef hm hf hms hfs hd hv hno h3 hh hp (.inr (hhd ▸ List.mem_cons_of_mem _ (hat.sublist.subset hb)))
  refine ⟨tr, d, _, e, _, hr, hg, hhd ▸ hb, fun hy => h4 ?_, rfl⟩
  have hyt : home e.node ∈ tr := by
    rcases List.mem_cons.1 hg.ends.2.1 with e | h
    · exact absurd (e ▸ hat.sublist.subset hy) (List.nodup_cons.1 hdm).1
    · exact h
  exact mem_labels.2 (Inside.C90_function_partial W args p b f hat hwith (body_mild _ (hms _ hp)) (hfs.imp id (fun h => h _ hp)) (.inl (hms _ hp))
    hfin hdm locs h1 tr _ hr _ hyt hy)

/-- **C93**, the other direction: if `get_vars_defined_before` has a variable with a node, then there is an execution in which the
value that the variable gets at that node, outside of the statements, is read or modified in them. Missing: files with `try`, and what
is missing for C71, C90 and C92. -/
theorem C93_possible_partial (F : File) (items : Nat → List Item) (vars : Nat) (definitions : List (Event × Event))
    (hdef : F.Definitions items vars definitions) (home : Nat → Nat) (hh : ∀ l e, Item.own e ∈ items l → home e.node = l) (W : World)
    (b : Body) (f : Bool) (hat : At b true F.body f) (hwith : f = true ∨ noWith b = true) (hm : F.body.noTry = true)
    (hf : W.asks = true ∨ F.body.noFor = true) (hms : ∀ f ∈ F.functions, f.2.noTry = true)
    (hfs : W.asks = true ∨ ∀ f ∈ F.functions, f.2.noFor = true) (hd : F.locations.Nodup) (result : List (Nat × Nat))
    (h : DefinedBefore (moduleGraph F.body) items definitions home b result) (v n : Nat) (hv : v < vars)
    (hno : ∀ l x, Item.called x ∈ items l → x.var ≠ v) (hmem : (v, n) ∈ result) :
    ∃ tr d x e y, RunBody W F.body tr .cut ∧ Gives items tr v d x e y ∧ x ∉ b.locations ∧ y ∈ b.locations ∧ d.node = n := by
  obtain ⟨locs, h1, rfl⟩ := h
  obtain ⟨l, hl, d, e, h2, h3, h4, rfl, rfl⟩ := mem_before.1 hmem
  have hfin := body_noFinally _ hm
  have hdm := (List.nodup_append.1 hd).2.1
  obtain ⟨q, hq, hql⟩ := mem_labels.1 hl
  obtain ⟨l', hl', hb⟩ := (Inside.C90_sound_partial F.body b f hat hfin hdm locs h1).2 q hq
  rw [hql] at hl'
  cases hl'
  have hhe := hh l e h2
  obtain ⟨tr, hr, hg⟩ := possible_module hdef hm hf hms hfs hd hv hno h3 hh (.inl (hhe ▸ hat.sublist.subset hb))
  refine ⟨tr, d, _, e, _, hr, hg, fun hx => h4 ?_, hhe ▸ hb, rfl⟩
  exact mem_labels.2 (Inside.C90_partial W F.body b f hat hwith (body_mild _ hm) hf (.inl hm) hfin hdm locs h1 tr _ hr _ hg.ends.1.1 hx)

/-- **C93**, the other direction, for functions. -/
theorem C93_possible_function_partial (F : File) (items : Nat → List Item) (vars : Nat) (definitions : List (Event × Event))
    (hdef : F.Definitions items vars definitions) (home : Nat → Nat) (hh : ∀ l e, Item.own e ∈ items l → home e.node = l) (W : World)
    (args : Nat) (p : Body) (hp : (args, p) ∈ F.functions) (b : Body) (f : Bool) (hat : At b true p f)
    (hwith : f = true ∨ noWith b = true) (hm : F.body.noTry = true) (hf : W.asks = true ∨ F.body.noFor = true)
    (hms : ∀ f ∈ F.functions, f.2.noTry = true) (hfs : W.asks = true ∨ ∀ f ∈ F.functions, f.2.noFor = true) (hd : F.locations.Nodup)
    (result : List (Nat × Nat)) (h : DefinedBefore (functionGraph args p) items definitions home b result) (v n : Nat) (hv : v < vars)
    (hno : ∀ l x, Item.called x ∈ items l → x.var ≠ v) (hmem : (v, n) ∈ result) :
    ∃ tr d x e y, RunBody W p tr .cut ∧ Gives items (args :: tr) v d x e y ∧ x ∉ b.locations ∧ y ∈ b.locations ∧ d.node = n := by
  obtain ⟨locs, h1, rfl⟩ := h
  obtain ⟨l, hl, d, e, h2, h3, h4, rfl, rfl⟩ := mem_before.1 hmem
  have hfin := body_noFinally _ (hms _ hp)
  have hdm := function_nodup hd hp
  obtain ⟨q, hq, hql⟩ := mem_labels.1 hl
  obtain ⟨l', hl', hb⟩ := (Inside.C90_sound_function_partial args p b f hat hfin hdm locs h1).2 q hq
  rw [hql] at hl'
  cases hl'
  have hhe := hh l e h2
  obtain ⟨tr, hr, hg⟩ := possible_function hdef hm hf hms hfs hd hv hno h3 hh hp (.inl (hhe ▸ List.mem_cons_of_mem _ (hat.sublist.subset hb)))
  refine ⟨tr, d, _, e, _, hr, hg, fun hx => h4 ?_, hhe ▸ hb, rfl⟩
  have hxt : home d.node ∈ tr := by
    rcases List.mem_cons.1 hg.ends.1.1 with e | h
    · exact absurd (e ▸ hat.sublist.subset hx) (List.nodup_cons.1 hdm).1
    · exact h
  exact mem_labels.2 (Inside.C90_function_partial W args p b f hat hwith (body_mild _ (hms _ hp)) (hfs.imp id (fun h => h _ hp)) (.inl (hms _ hp))
    hfin hdm locs h1 tr _ hr _ hxt hx)

/-! ### Examples -/

open Verif.Inside (around middle middle_at middle_inside around_run)

/-- `x = 0`, `while a: (if b: x = x + 1)`, `(if x: c)`, `print(x)`; the events of `x`, and of `a`. -/
def aroundItems : Nat → List Item
  | 0 => [.own ⟨0, 10, .assign⟩]
  | 1 => [.own ⟨1, 11, .read⟩]
  | 3 => [.own ⟨0, 12, .read⟩, .own ⟨0, 13, .reassign⟩]
  | 4 => [.own ⟨0, 14, .read⟩]
  | 6 => [.own ⟨0, 15, .read⟩]
  | _ => []

def aroundFile : File := ⟨[], around⟩

/-- The locations that the nodes are at. -/
def aroundHome (n : Nat) : Nat := if n = 10 then 0 else if n = 11 then 1 else if n = 12 ∨ n = 13 then 3 else if n = 14 then 4 else 6

theorem around_home (l : Nat) (e : Event) (h : Item.own e ∈ aroundItems l) : aroundHome e.node = l := by
  unfold aroundItems at h
  split at h <;> simp at h
  · subst h; rfl
  · subst h; rfl
  · rcases h with rfl | rfl <;> rfl
  · subst h; rfl
  · subst h; rfl

theorem around_called (v l : Nat) (x : Event) (h : Item.called x ∈ aroundItems l) : x.var ≠ v := by
  unfold aroundItems at h
  split at h <;> simp at h

theorem around_reads (v l : Nat) (x : Event) (h : Item.called x ∈ aroundItems l) (hx : x.var = v) : x.type = .read :=
  absurd hx (around_called v l x h)

/-- What is executed if the test of the `while` and that of the first `if` are true once. -/
theorem around_run_more : RunBody quiet around [0, 1, 2, 3, 1, 4, 6] .normal := by
  refine .both (t1 := [0]) .ok (.both (t1 := [1, 2, 3, 1]) ?_ (.both (t1 := [4]) (.both (t1 := [4]) (t2 := []) .ok (.right .ok))
    (.both (t1 := [6]) (t2 := []) .ok .ok)))
  exact .next (t1 := [1]) (t2 := [2, 3]) (o := .normal) (t3 := [1]) .ok
    (.both (t1 := [2, 3]) (t2 := []) (.both (t1 := [2]) (t2 := [3]) .ok (.left (.both (t1 := [3]) (t2 := []) .ok .ok))) .ok) (.inl rfl)
    (.done (.both (t1 := [1]) (t2 := []) .ok .ok))

theorem around_gives : Gives aroundItems [0, 1, 2, 3, 1, 4, 6] 0 ⟨0, 13, .reassign⟩ 3 ⟨0, 15, .read⟩ 6 :=
  ⟨rfl, by decide, rfl, .inl rfl, [(0, .own ⟨0, 10, .assign⟩), (1, .own ⟨1, 11, .read⟩), (3, .own ⟨0, 12, .read⟩)],
    [(1, .own ⟨1, 11, .read⟩), (4, .own ⟨0, 14, .read⟩)], [], rfl, by
      intro q hq c hc hv
      simp at hq
      rcases hq with rfl | rfl <;> cases hc <;> rfl⟩

/-- `print(x)` may get the value from the loop, whatever is found. -/
example (definitions : List (Event × Event)) (h : aroundFile.Definitions aroundItems 2 definitions) :
    (⟨0, 15, .read⟩, ⟨0, 13, .reassign⟩) ∈ definitions :=
  C92_partial aroundFile aroundItems 2 definitions h quiet rfl (.inr rfl) (.inl rfl) _ _ around_run_more 0 (by decide) (around_reads 0) _ _ 3 6
    around_gives

/-- So the value from the loop is used after the statements in the middle. -/
example (definitions : List (Event × Event)) (h : aroundFile.Definitions aroundItems 2 definitions) (result : List (Nat × Nat))
    (hr : UsedAfter (moduleGraph around) aroundItems definitions aroundHome middle result) : (0, 15) ∈ result :=
  C94_partial aroundFile aroundItems 2 definitions h aroundHome around_home quiet middle false middle_at (.inr rfl) rfl (.inr rfl) (.inl rfl) rfl
    (by decide) result hr _ _ around_run_more 0 (by decide) (around_reads 0) _ _ 3 6 around_gives (by decide) (by decide)

/-- And the first value is defined before them: the second `if` may read it. -/
example (definitions : List (Event × Event)) (h : aroundFile.Definitions aroundItems 2 definitions) (result : List (Nat × Nat))
    (hr : DefinedBefore (moduleGraph around) aroundItems definitions aroundHome middle result) : (0, 10) ∈ result :=
  C93_partial aroundFile aroundItems 2 definitions h aroundHome around_home quiet middle false middle_at (.inr rfl) rfl (.inr rfl) (.inl rfl) rfl
    (by decide) result hr _ _ around_run 0 (by decide) (around_reads 0) ⟨0, 10, .assign⟩ ⟨0, 14, .read⟩ 0 4
    ⟨rfl, by decide, rfl, .inl rfl, [], [(1, .own ⟨1, 11, .read⟩), (1, .own ⟨1, 11, .read⟩)], [(6, .own ⟨0, 15, .read⟩)], rfl, by
      intro q hq c hc hv
      simp at hq
      subst hq
      cases hc; cases hv⟩ (by decide) (by decide)

/-- The definitions that are found in the file. -/
def aroundDefinitions : List (Event × Event) :=
  [(⟨0, 12, .read⟩, ⟨0, 10, .assign⟩), (⟨0, 12, .read⟩, ⟨0, 13, .reassign⟩), (⟨0, 14, .read⟩, ⟨0, 10, .assign⟩),
   (⟨0, 14, .read⟩, ⟨0, 13, .reassign⟩), (⟨0, 15, .read⟩, ⟨0, 10, .assign⟩), (⟨0, 15, .read⟩, ⟨0, 13, .reassign⟩)]

theorem around_definitions : aroundFile.Definitions aroundItems 2 aroundDefinitions :=
  .inr ⟨rfl, [⟨0, [0, 2, 4, 5, 3, 8, 9], _⟩], .cons (n := 20) ⟨40, by decide +kernel, by decide +kernel⟩ (by decide +kernel) .nil,
    by decide +kernel⟩

example : UsedAfter (moduleGraph around) aroundItems aroundDefinitions aroundHome middle [(0, 15)] := ⟨_, middle_inside, by decide +kernel⟩

example : DefinedBefore (moduleGraph around) aroundItems aroundDefinitions aroundHome middle [(0, 10), (0, 10)] :=
  ⟨_, middle_inside, by decide +kernel⟩

/-- An execution in which the second `if` reads the value from the loop. -/
example : ∃ tr x y, RunBody quiet around tr .cut ∧ Gives aroundItems tr 0 ⟨0, 13, .reassign⟩ x ⟨0, 14, .read⟩ y := by
  rcases C92_possible_partial aroundFile aroundItems 2 aroundDefinitions around_definitions quiet rfl (.inr rfl) (fun _ h => nomatch h)
    (.inr (fun _ h => nomatch h)) ⟨0, 13, .reassign⟩ ⟨0, 14, .read⟩ (by decide) (around_reads 0) (by decide) with ⟨tr, x, y, h, h'⟩ | ⟨f, hf, -⟩
  · refine ⟨tr, x, y, h, h'.resolve_right fun h' => ?_⟩
    exact around_called 0 _ _ h'.ends.2.2 rfl
  · cases hf

/-- One in which a value from the statements in the middle is used at the last node. -/
example : ∃ tr d x e y, RunBody quiet around tr .cut ∧ Gives aroundItems tr 0 d x e y ∧ x ∈ middle.locations ∧ y ∉ middle.locations ∧
    e.node = 15 :=
  C94_possible_partial aroundFile aroundItems 2 aroundDefinitions around_definitions aroundHome around_home quiet middle false middle_at (.inr rfl)
    rfl (.inr rfl) (fun _ h => nomatch h) (.inr (fun _ h => nomatch h)) (by decide) _ ⟨_, middle_inside, rfl⟩ 0 15 (by decide) (around_called 0)
    (by decide +kernel)

example : ∃ tr d x e y, RunBody quiet around tr .cut ∧ Gives aroundItems tr 0 d x e y ∧ x ∉ middle.locations ∧ y ∈ middle.locations ∧
    d.node = 10 :=
  C93_possible_partial aroundFile aroundItems 2 aroundDefinitions around_definitions aroundHome around_home quiet middle false middle_at (.inr rfl)
    rfl (.inr rfl) (fun _ h => nomatch h) (.inr (fun _ h => nomatch h)) (by decide) _ ⟨_, middle_inside, rfl⟩ 0 10 (by decide) (around_called 0)
    (by decide +kernel)

/-- The same statements in a function without parameters, that is defined in a module. -/
def aroundFunction : File := ⟨[(20, around)], .cons (.simple 21) .nil⟩

/-- `print(x)` in the function may get the value from the loop, whatever is found, so the value is found to be used after the statements in the middle. And as it is
found, there is an execution in which it is. -/
example (definitions : List (Event × Event)) (h : aroundFunction.Definitions aroundItems 2 definitions) (result : List (Nat × Nat))
    (hr : UsedAfter (functionGraph 20 around) aroundItems definitions aroundHome middle result) :
    (⟨0, 15, .read⟩, ⟨0, 13, .reassign⟩) ∈ definitions ∧ (0, 15) ∈ result ∧
      ∃ tr d x e y, RunBody quiet around tr .cut ∧ Gives aroundItems (20 :: tr) 0 d x e y ∧ x ∈ middle.locations ∧ y ∉ middle.locations ∧ e.node = 15 := by
  have hg : Gives aroundItems (20 :: [0, 1, 2, 3, 1, 4, 6]) 0 ⟨0, 13, .reassign⟩ 3 ⟨0, 15, .read⟩ 6 := around_gives
  have hp : (20, around) ∈ aroundFunction.functions := List.mem_cons_self ..
  have h2 := C94_function_partial aroundFunction rfl aroundItems 2 definitions h aroundHome around_home 20 around hp quiet middle false middle_at (.inr rfl) rfl
    (.inr rfl) (.inl rfl) rfl (by decide) result hr _ _ around_run_more 0 (by decide) (around_reads 0) _ _ 3 6 hg (by decide) (by decide)
  exact ⟨C92_function_partial aroundFunction rfl aroundItems 2 definitions h 20 around hp quiet rfl (.inr rfl) (.inl rfl) _ _ around_run_more 0 (by decide)
    (around_reads 0) _ _ 3 6 hg, h2, C94_possible_function_partial aroundFunction aroundItems 2 definitions h aroundHome around_home quiet 20 around hp middle false
    middle_at (.inr rfl) rfl (.inr rfl) (by simp [aroundFunction]; rfl) (.inr (by simp [aroundFunction]; rfl)) (by decide) result hr 0 15 (by decide)
    (around_called 0) h2⟩

/-- The first value is found to be defined before them, and there is an execution in which it is read in them. -/
example (definitions : List (Event × Event)) (h : aroundFunction.Definitions aroundItems 2 definitions) (result : List (Nat × Nat))
    (hr : DefinedBefore (functionGraph 20 around) aroundItems definitions aroundHome middle result) : (0, 10) ∈ result ∧
      ∃ tr d x e y, RunBody quiet around tr .cut ∧ Gives aroundItems (20 :: tr) 0 d x e y ∧ x ∉ middle.locations ∧ y ∈ middle.locations ∧ d.node = 10 := by
  have hp : (20, around) ∈ aroundFunction.functions := List.mem_cons_self ..
  have h2 := C93_function_partial aroundFunction rfl aroundItems 2 definitions h aroundHome around_home 20 around hp quiet middle false middle_at (.inr rfl) rfl
    (.inr rfl) (.inl rfl) rfl (by decide) result hr _ _ around_run 0 (by decide) (around_reads 0) ⟨0, 10, .assign⟩ ⟨0, 14, .read⟩ 0 4
    ⟨rfl, by decide, rfl, .inl rfl, [], [(1, .own ⟨1, 11, .read⟩), (1, .own ⟨1, 11, .read⟩)], [(6, .own ⟨0, 15, .read⟩)], rfl, by
      intro q hq c hc hv
      simp at hq
      subst hq
      cases hc; cases hv⟩ (by decide) (by decide)
  exact ⟨h2, C93_possible_function_partial aroundFunction aroundItems 2 definitions h aroundHome around_home quiet 20 around hp middle false
    middle_at (.inr rfl) rfl (.inr rfl) (by simp [aroundFunction]; rfl) (.inr (by simp [aroundFunction]; rfl)) (by decide) result hr 0 10 (by decide)
    (around_called 0) h2⟩

/-- There are definitions that are found, and statements in the middle that are. -/
example : ∃ definitions locs, aroundFunction.Definitions aroundItems 2 definitions ∧ Inside (functionGraph 20 around) middle locs := by
  obtain ⟨d, hd⟩ := C92_total aroundFunction aroundItems 2
  obtain ⟨locs, hl, -⟩ := Inside.C90_total_function_partial 20 around middle false middle_at rfl rfl (by decide)
  exact ⟨d, locs, hd, hl⟩

/-- `x = 1`, `f()`, with `def f(): print(x)`; the events of `x`. -/
def readFile : File := ⟨[(10, .cons (.simple 11) .nil)], .cons (.simple 0) (.cons (.simple 1) .nil)⟩

def readItems : Nat → List Item
  | 0 => [.own ⟨0, 20, .assign⟩]
  | 1 => [.called ⟨0, 21, .read⟩]
  | 11 => [.own ⟨0, 21, .read⟩]
  | _ => []

/-- What `f` prints is what the module assigned. -/
example (definitions : List (Event × Event)) (h : readFile.Definitions readItems 1 definitions) : (⟨0, 21, .read⟩, ⟨0, 20, .assign⟩) ∈ definitions :=
  C92_called_partial readFile readItems 1 definitions h quiet rfl (.inr rfl) (.inl rfl) [0, 1] .normal
    (.both (t1 := [0]) .ok (.both (t1 := [1]) (t2 := []) .ok .ok)) 0 (by decide)
    (by
      intro l x hx _
      unfold readItems at hx
      split at hx <;> simp at hx
      rw [hx])
    _ _ 0 1 ⟨rfl, by decide, rfl, .inl rfl, [], [], [], rfl, (fun _ h => nomatch h)⟩

/-! ### Disagreements -/

open Verif.Inside (withIf withIf_run insideIn_eq)

/-- `with a: (if b: c); x = 1` and then `print(x)`. -/
def withItems : Nat → List Item
  | 3 => [.own ⟨0, 10, .assign⟩]
  | 4 => [.own ⟨0, 11, .read⟩]
  | _ => []

/-- **C94** is false where C90 is: `x` is assigned in the `with` and read after it, but is not found. -/
theorem C94_with_counterexample :
    let F : File := ⟨[], seq [withIf, .simple 4]⟩
    let b := seq [withIf]
    F.Definitions withItems 1 [(⟨0, 11, .read⟩, ⟨0, 10, .assign⟩)] ∧ At b true F.body false ∧ RunBody quiet F.body [0, 1, 2, 3, 4] .normal ∧
      Gives withItems [0, 1, 2, 3, 4] 0 ⟨0, 10, .assign⟩ 3 ⟨0, 11, .read⟩ 4 ∧ 3 ∈ b.locations ∧ 4 ∉ b.locations ∧
      UsedAfter (moduleGraph F.body) withItems [(⟨0, 11, .read⟩, ⟨0, 10, .assign⟩)] (fun n => if n = 10 then 3 else 4) b [] := by
  refine ⟨.inr ⟨rfl, [⟨0, [0, 2, 3], _⟩], .cons (n := 20) ⟨40, by decide +kernel, by decide +kernel⟩ (by decide +kernel) .nil,
    by decide +kernel⟩, .here (seq [.simple 4]), withIf_run (.both (t1 := [4]) (t2 := []) .ok .ok), ?_, by decide, by decide,
    [(0, 0), (0, 1), (2, 0)], insideIn_eq (n := 40) (by decide +kernel), by decide +kernel⟩
  exact ⟨rfl, by decide, rfl, .inl rfl, [], [], [], rfl, fun _ h => nomatch h⟩

/-- **C93** is false, too: `x` is read in the `with`. -/
theorem C93_with_counterexample :
    let F : File := ⟨[], seq [.simple 5, withIf, .simple 4]⟩
    let b := seq [withIf]
    let items : Nat → List Item := fun l => if l = 5 then [.own ⟨0, 10, .assign⟩] else if l = 3 then [.own ⟨0, 11, .read⟩] else []
    F.Definitions items 1 [(⟨0, 11, .read⟩, ⟨0, 10, .assign⟩)] ∧ At b true F.body false ∧ RunBody quiet F.body [5, 0, 1, 2, 3, 4] .normal ∧
      Gives items [5, 0, 1, 2, 3, 4] 0 ⟨0, 10, .assign⟩ 5 ⟨0, 11, .read⟩ 3 ∧ 5 ∉ b.locations ∧ 3 ∈ b.locations ∧
      DefinedBefore (moduleGraph F.body) items [(⟨0, 11, .read⟩, ⟨0, 10, .assign⟩)] (fun n => if n = 10 then 5 else 3) b [] := by
  refine ⟨.inr ⟨rfl, [⟨0, [0, 2, 3], _⟩], .cons (n := 20) ⟨40, by decide +kernel, by decide +kernel⟩ (by decide +kernel) .nil,
    by decide +kernel⟩, .skip (.here (seq [.simple 4])), .both (t1 := [5]) .ok (withIf_run (.both (t1 := [4]) (t2 := []) .ok .ok)), ?_,
    by decide, by decide, [(0, 1), (0, 2), (2, 0)], insideIn_eq (n := 40) (by decide +kernel), by decide +kernel⟩
  exact ⟨rfl, by decide, rfl, .inl rfl, [], [], [], rfl, fun _ h => nomatch h⟩

/-- **C92** is false of `finally`: `try: x = 1`, `finally: print(x)`. -/
theorem C92_finally_counterexample :
    let p := seq [.try_ (.simple 0) .nil .nil .nil (seq [.simple 1])]
    let items : Nat → List Item := fun l => if l = 0 then [.own ⟨0, 10, .assign⟩] else [.own ⟨0, 11, .read⟩]
    RunBody quiet p [0, 1] .normal ∧ Gives items [0, 1] 0 ⟨0, 10, .assign⟩ 0 ⟨0, 11, .read⟩ 1 ∧ (File.mk [] p).Definitions items 1 [] := by
  refine ⟨?_, ⟨rfl, by decide, rfl, .inl rfl, [], [], [], rfl, by simp⟩,
    .inr ⟨rfl, [⟨0, [0], _⟩], .cons (n := 20) ⟨40, by decide +kernel, by decide +kernel⟩ (by decide +kernel) .nil, by decide +kernel⟩⟩
  refine .both (t1 := [0, 1]) (t2 := []) (.both (t1 := [0]) (t2 := [1]) ?_ (by decide) (.both (t1 := [1]) (t2 := []) .ok .ok)) .ok
  exact .good (t1 := [0]) (t2 := []) (.both (t1 := [0]) (t2 := []) .ok .ok) .ok

end Verif.Uses
