import Verif.Model.Uses
import Verif.Props.Reaching
import Verif.Lemmas.TraverseFlow

/-! Lemmas for C92 to C94: definitions in graphs and what happens along their paths. -/

namespace Verif.Uses

open Verif.Flow (Body Sane)
open Verif.Cfg (Event Item Prog Reach Ever Reaching)

/-- Each block is a successor of the one before. -/
def PLinked (P : Prog) : List Nat → Prop
  | a :: b :: rest => b ∈ P.succ a ∧ PLinked P (b :: rest)
  | _ => True

variable {P : Prog} {starts : List Nat} {v : Nat} {d : Event}

/-- Nothing replaces the value. -/
def Calm (v : Nat) (its : List Item) : Prop := ∀ it ∈ its, ∀ c, it = .own c → c.var = v → c.type = .read

theorem carry : ∀ (rest : List Nat) (n b k : Nat) {its after : List Item} {it : Item}, n = (P.items b).length - k → k ≤ (P.items b).length →
    Reaching P starts v d b k → PLinked P (b :: rest) → (P.items b).drop k ++ rest.flatMap P.items = its ++ it :: after → Calm v its →
    ∃ b' k', (P.items b')[k']? = some it ∧ Reaching P starts v d b' k'
  | [], 0, b, k, its, after, it, hn, hk, hr, hl, he, hc => by
    rw [List.drop_of_length_le (by omega)] at he
    cases its <;> cases he
  | c :: rest, 0, b, k, its, after, it, hn, hk, hr, hl, he, hc => by
    have : k = (P.items b).length := by omega
    subst this
    rw [List.drop_of_length_le (Nat.le_refl _), List.nil_append, List.flatMap_cons] at he
    exact carry rest _ c 0 rfl (Nat.zero_le _) (.edge hr hl.1) hl.2 (by rw [List.drop_zero]; exact he) hc
  | rest, n + 1, b, k, its, after, it, hn, hk, hr, hl, he, hc => by
    have hlt : k < (P.items b).length := by omega
    rw [List.drop_eq_getElem_cons hlt] at he
    have hget : (P.items b)[k]? = some (P.items b)[k] := List.getElem?_eq_getElem hlt
    cases its with
    | nil =>
      rw [List.nil_append, List.cons_append, List.cons.injEq] at he
      exact ⟨b, k, by rw [hget, he.1], hr⟩
    | cons x its =>
      rw [List.cons_append, List.cons_append, List.cons.injEq] at he
      refine carry rest n b (k + 1) (its := its) (after := after) (by omega) (by omega)
        (.skip hr hget fun c hx hv => hc x (by simp) c (he.1 ▸ hx) hv) hl he.2 fun y hy => hc y (by simp [hy])

theorem find : ∀ (rest : List Nat) (n b k : Nat) {its after : List Item} {it : Item}, n = (P.items b).length - k → k ≤ (P.items b).length →
    Ever P starts b → PLinked P (b :: rest) → (P.items b).drop k ++ rest.flatMap P.items = its ++ it :: after →
    ∃ b' k' rest', Ever P starts b' ∧ (P.items b')[k']? = some it ∧ PLinked P (b' :: rest') ∧
      after = (P.items b').drop (k' + 1) ++ rest'.flatMap P.items
  | [], 0, b, k, its, after, it, hn, hk, hr, hl, he => by
    rw [List.drop_of_length_le (by omega)] at he
    cases its <;> cases he
  | c :: rest, 0, b, k, its, after, it, hn, hk, hr, hl, he => by
    have : k = (P.items b).length := by omega
    subst this
    rw [List.drop_of_length_le (Nat.le_refl _), List.nil_append, List.flatMap_cons] at he
    obtain ⟨s, hs, h⟩ := hr
    exact find rest _ c 0 rfl (Nat.zero_le _) ⟨s, hs, h.next hl.1⟩ hl.2 (by rw [List.drop_zero]; exact he)
  | rest, n + 1, b, k, its, after, it, hn, hk, hr, hl, he => by
    have hlt : k < (P.items b).length := by omega
    rw [List.drop_eq_getElem_cons hlt] at he
    have hget : (P.items b)[k]? = some (P.items b)[k] := List.getElem?_eq_getElem hlt
    cases its with
    | nil =>
      rw [List.nil_append, List.cons_append, List.cons.injEq] at he
      exact ⟨b, k, rest, hr, by rw [hget, he.1], hl, he.2.symm⟩
    | cons x its =>
      rw [List.cons_append, List.cons_append, List.cons.injEq] at he
      exact find rest n b (k + 1) (its := its) (after := after) (by omega) (by omega) hr hl he.2

/-- What happens along a path gets there. -/
theorem reaching_of_path {path : List Nat} {s : Nat} (hs : s ∈ starts) (hl : PLinked P (s :: path)) {before between after : List Item} {it : Item}
    (he : (s :: path).flatMap P.items = before ++ .own d :: (between ++ it :: after)) (hc : Calm v between) (hv : d.var = v)
    (ht : d.type ≠ .read) : ∃ b k, (P.items b)[k]? = some it ∧ Reaching P starts v d b k := by
  rw [List.flatMap_cons] at he
  obtain ⟨b, k, rest, h1, h2, h3, h4⟩ := find path _ s 0 rfl (Nat.zero_le _) ⟨s, hs, .start⟩ hl (by rw [List.drop_zero]; exact he)
  have hlt : k < (P.items b).length := by
    obtain ⟨h, -⟩ := List.getElem?_eq_some_iff.1 h2
    exact h
  exact carry rest _ b (k + 1) rfl (by omega) (.gen h1 h2 (.inl rfl) hv ht) h3 h4.symm hc

theorem plinked_snoc {b c : Nat} (hc : c ∈ P.succ b) : ∀ q : List Nat, PLinked P (q ++ [b]) → PLinked P (q ++ [b] ++ [c])
  | [], _ => ⟨hc, trivial⟩
  | [_], h => ⟨h.1, hc, trivial⟩
  | _ :: a' :: q, h => ⟨h.1, plinked_snoc hc (a' :: q) h.2⟩

theorem reach_cons {a b c : Nat} (hb : b ∈ P.succ a) (h : Reach P.succ b c) : Reach P.succ a c := by
  induction h with
  | start => exact .next .start hb
  | next _ hc ih => exact .next ih hc

theorem path_of_reach {s b : Nat} (h : Reach P.succ s b) : ∃ q, PLinked P (q ++ [b]) ∧ (q ++ [b]).head? = some s := by
  induction h with
  | start => exact ⟨[], trivial, rfl⟩
  | next h hc ih =>
    rename_i b c
    obtain ⟨q, h1, h2⟩ := ih
    refine ⟨q ++ [b], plinked_snoc hc q h1, ?_⟩
    cases q with
    | nil => exact h2
    | cons a q => exact h2

/-- What gets somewhere happens along a path. -/
theorem path_of_reaching (hno : ∀ b x, Item.called x ∈ P.items b → x.var = v → x.type = .read) {b k : Nat} (h : Reaching P starts v d b k) :
    d.var = v ∧ d.type ≠ .read ∧ ∃ s ∈ starts, ∃ q, PLinked P (q ++ [b]) ∧ (q ++ [b]).head? = some s ∧
      ∃ before between, q.flatMap P.items ++ (P.items b).take k = before ++ .own d :: between ∧ Calm v between := by
  induction h with
  | @gen b k it h1 h2 h3 h4 h5 =>
    obtain ⟨s, hs, hr⟩ := h1
    obtain ⟨q, h6, h7⟩ := path_of_reach hr
    refine ⟨h4, h5, s, hs, q, h6, h7, q.flatMap P.items ++ (P.items b).take k, [], ?_, fun _ h => nomatch h⟩
    have : it = .own d := by
      rcases h3 with h | h
      · exact h
      · subst h
        exact absurd (hno b d (List.mem_of_getElem? h2) h4) h5
    subst this
    rw [List.take_add_one, h2]
    simp
  | @skip b k it _ h2 h3 ih =>
    obtain ⟨h4, h5, s, hs, q, h6, h7, before, between, h8, h9⟩ := ih
    refine ⟨h4, h5, s, hs, q, h6, h7, before, between ++ [it], ?_, ?_⟩
    · rw [List.take_add_one, h2, ← List.append_assoc, h8]
      simp
    · intro x hx c
      rcases List.mem_append.1 hx with hx | hx
      · exact h9 x hx c
      · rw [List.mem_singleton.1 hx]
        exact h3 c
  | @edge b c _ hc ih =>
    obtain ⟨h4, h5, s, hs, q, h6, h7, before, between, h8, h9⟩ := ih
    refine ⟨h4, h5, s, hs, q ++ [b], plinked_snoc hc q h6, ?_, before, between, ?_, h9⟩
    · cases q with
      | nil => exact h7
      | cons a q => exact h7
    · rw [List.take_length] at h8
      simpa using h8

/-! ### Paths of a graph in a file -/

/-- `g` is the graph of a module or of a function in a file, and `num` gives the numbers of its blocks in the file; `items` has
what happens at each location. -/
structure InFile (P : Prog) (starts : List Nat) (g : Flow.Graph) (items : Nat → List Item) (num : Nat → Nat) : Prop where
  start : num g.start ∈ starts
  locs : ∀ b, b < g.count → P.locs (num b) = (g.locs b).map items
  succ : ∀ b, b < g.count → P.succ (num b) = (g.succs b).map num

section
variable {g : Flow.Graph} {items : Nat → List Item} {num : Nat → Nat}

theorem snds (items : Nat → List Item) (tr : List Nat) : (happens items tr).map (·.2) = tr.flatMap items := by
  unfold happens
  rw [List.map_flatMap]
  congr 1
  funext l
  rw [List.map_map]
  exact List.map_id _

theorem items_num (h : InFile P starts g items num) {b : Nat} (hb : b < g.count) : P.items (num b) = (g.locs b).flatMap items := by
  unfold Prog.items
  rw [h.locs b hb, List.flatMap_def]

theorem path_bound (hg : Sane g) : ∀ {b : Nat} (path : List Nat), b < g.count → g.Linked (b :: path) → ∀ c ∈ b :: path, c < g.count
  | b, [], hb, _, c, hc => by rw [List.mem_singleton.1 hc]; exact hb
  | b, a :: path, hb, hl, c, hc => by
    rcases List.mem_cons.1 hc with rfl | hc
    · exact hb
    · exact path_bound hg path (hg.tgt _ _ hl.1) hl.2 c hc

theorem plinked_num (h : InFile P starts g items num) : ∀ (path : List Nat), (∀ c ∈ path, c < g.count) → g.Linked path → PLinked P (path.map num)
  | [], _, _ => trivial
  | [_], _, _ => trivial
  | a :: b :: path, hb, hl => by
    refine ⟨?_, plinked_num h (b :: path) (fun c hc => hb c (by simp [hc])) hl.2⟩
    rw [h.succ a (hb a (by simp))]
    exact List.mem_map.2 ⟨b, Traverse.mem_succs.2 hl.1, rfl⟩

theorem items_along (h : InFile P starts g items num) : ∀ (path : List Nat), (∀ c ∈ path, c < g.count) →
    (path.map num).flatMap P.items = (g.along path).flatMap items
  | [], _ => rfl
  | b :: path, hb => by
    have ih := items_along h path fun c hc => hb c (by simp [hc])
    unfold Flow.Graph.along at ih ⊢
    rw [List.map_cons, List.flatMap_cons, List.flatMap_cons, List.flatMap_append, ih, items_num h (hb b (by simp))]

/-- A path in the file is one of the graph. -/
theorem path_num (h : InFile P starts g items num) (hg : Sane g) : ∀ (path : List Nat) {b : Nat}, b < g.count → PLinked P (num b :: path) →
    ∃ path', path = path'.map num ∧ g.Linked (b :: path')
  | [], b, hb, _ => ⟨[], rfl, trivial⟩
  | c :: path, b, hb, hl => by
    have h1 := hl.1
    rw [h.succ b hb] at h1
    obtain ⟨c', hc', rfl⟩ := List.mem_map.1 h1
    have hc := Traverse.mem_succs.1 hc'
    obtain ⟨path', rfl, h2⟩ := path_num h hg path (hg.tgt _ _ hc) hl.2
    exact ⟨c' :: path', rfl, hc, h2⟩

/-- When the locations are executed in turn, `d` at `x` gives `v` a value that it still has when `it` happens at `y`. -/
def Hands (items : Nat → List Item) (tr : List Nat) (v : Nat) (d : Event) (x : Nat) (it : Item) (y : Nat) : Prop :=
  d.var = v ∧ d.type ≠ .read ∧ ∃ before between after, happens items tr = before ++ (x, .own d) :: (between ++ (y, it) :: after) ∧
    ∀ q ∈ between, ∀ c, q.2 = .own c → c.var = v → c.type = .read

theorem gives_iff {tr : List Nat} {v : Nat} {d e : Event} {x y : Nat} :
    Gives items tr v d x e y ↔ Hands items tr v d x (.own e) y ∧ e.var = v ∧ (e.type = .read ∨ e.type = .modify) :=
  ⟨fun ⟨h1, h2, h3, h4, h5⟩ => ⟨⟨h1, h2, h5⟩, h3, h4⟩, fun ⟨⟨h1, h2, h5⟩, h3, h4⟩ => ⟨h1, h2, h3, h4, h5⟩⟩

theorem givesCalled_iff {tr : List Nat} {v : Nat} {d e : Event} {x y : Nat} :
    GivesCalled items tr v d x e y ↔ Hands items tr v d x (.called e) y ∧ e.var = v ∧ (e.type = .read ∨ e.type = .modify) :=
  ⟨fun ⟨h1, h2, h3, h4, h5⟩ => ⟨⟨h1, h2, h5⟩, h3, h4⟩, fun ⟨⟨h1, h2, h5⟩, h3, h4⟩ => ⟨h1, h2, h3, h4, h5⟩⟩

/-- What happens along a path of the graph is found. -/
theorem hands_reaching (h : InFile P starts g items num) (hg : Sane g) {path tr : List Nat} (hp : g.IsPath path) (htr : tr <+: g.along path)
    {v : Nat} {d : Event} {it : Item} {x y : Nat} (hgv : Hands items tr v d x it y) :
    ∃ b k, (P.items b)[k]? = some it ∧ Reaching P starts v d b k := by
  obtain ⟨h1, h2, before, between, after, h5, h6⟩ := hgv
  obtain ⟨hs, hl⟩ := hp
  cases path with
  | nil => cases hs
  | cons b path =>
    cases hs
    have hb := path_bound hg path hg.start hl
    obtain ⟨t', ht'⟩ := htr
    have e1 := congrArg (List.map (·.2)) h5
    rw [snds] at e1
    refine reaching_of_path (path := path.map num) h.start (plinked_num h (g.start :: path) hb hl) (before := before.map (·.2)) (between := between.map (·.2))
      (after := after.map (·.2) ++ t'.flatMap items) ?_ ?_ h1 h2
    · have := items_along h (g.start :: path) hb
      rw [List.map_cons] at this
      rw [this, ← ht', List.flatMap_append, e1]
      simp
    · intro it hit c
      obtain ⟨q, hq, rfl⟩ := List.mem_map.1 hit
      exact h6 q hq c

/-- What is found happens along a path of the graph. -/
theorem reaching_hands (h : InFile P starts g items num) (hg : Sane g) {v : Nat}
    (hno : ∀ b x, Item.called x ∈ P.items b → x.var = v → x.type = .read) {d : Event} {it : Item}
    {b k : Nat} (hget : (P.items (num b))[k]? = some it) (honly : ∀ s ∈ starts, Reach P.succ s (num b) → s = num g.start)
    (hr : Reaching P starts v d (num b) k) : ∃ path x y, g.IsPath path ∧ Hands items (g.along path) v d x it y := by
  obtain ⟨h1, h2, s, hs, q, h3, h4, before, between, h5, h6⟩ := path_of_reaching hno hr
  have hreach : ∀ (q : List Nat) (s b : Nat), PLinked P (q ++ [b]) → (q ++ [b]).head? = some s → Reach P.succ s b := by
    intro q
    induction q with
    | nil => intro s b _ h; cases h; exact .start
    | cons a q ih =>
      intro s b hl h
      cases h
      cases q with
      | nil =>
        exact Verif.Cfg.Reach.next .start hl.1
      | cons a' q =>
        exact reach_cons hl.1 (ih a' b hl.2 rfl)
  have e0 := honly s hs (hreach q s (num b) h3 h4)
  subst e0
  obtain ⟨rest, hrest⟩ : ∃ rest, q ++ [num b] = num g.start :: rest := by
    cases q with
    | nil => exact ⟨[], by simpa using h4⟩
    | cons a q => exact ⟨q ++ [num b], by simpa using h4⟩
  rw [hrest] at h3
  obtain ⟨path, rfl, hl⟩ := path_num h hg rest hg.start h3
  have hbound := path_bound hg path hg.start hl
  have hitems : (g.along (g.start :: path)).flatMap items = before ++ .own d :: (between ++ it :: (P.items (num b)).drop (k + 1)) := by
    rw [← items_along h _ hbound, List.map_cons, ← hrest, List.flatMap_append, List.flatMap_cons, List.flatMap_nil, List.append_nil]
    obtain ⟨hlt, hge⟩ := List.getElem?_eq_some_iff.1 hget
    have : P.items (num b) = (P.items (num b)).take k ++ it :: (P.items (num b)).drop (k + 1) := by
      conv_lhs => rw [← List.take_append_drop k (P.items (num b)), List.drop_eq_getElem_cons hlt, hge]
    conv_lhs => rw [this]
    rw [← List.append_assoc, h5]
    simp
  rw [← snds] at hitems
  obtain ⟨l1, l2, h7, h8, h9⟩ := List.map_eq_append_iff.1 hitems
  obtain ⟨⟨x, it1⟩, l3, h10, h11, h12⟩ := List.map_eq_cons_iff.1 h9
  obtain ⟨l4, l5, h13, h14, h15⟩ := List.map_eq_append_iff.1 h12
  obtain ⟨⟨y, it2⟩, l6, h16, h17, h18⟩ := List.map_eq_cons_iff.1 h15
  cases h11
  cases h17
  refine ⟨g.start :: path, x, y, ⟨rfl, hl⟩, h1, h2, l1, l4, l6, ?_, ?_⟩
  · rw [h7, h10, h13, h16]
  · intro q hq c hc
    exact h6 q.2 (by rw [← h14]; exact List.mem_map.2 ⟨q, hq, rfl⟩) c hc

end

end Verif.Uses
