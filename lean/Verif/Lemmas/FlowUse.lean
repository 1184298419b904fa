import Verif.Model.FlowUse
import Verif.Lemmas.FlowPath
import Verif.Lemmas.FlowLocs

/-! Blocks that can be reached, and loops with one iteration. -/

namespace Verif.Flow

/-- A path leads to the block. -/
def Graph.Gets (g : Graph) (b : Nat) : Prop := ∃ path, g.IsPath path ∧ path.getLast? = some b

theorem linked_snoc {g : Graph} {b n : Nat} (hn : (b, n) ∈ g.edges) : ∀ path : List Nat, g.Linked path →
    path.getLast? = some b → g.Linked (path ++ [n])
  | [], _, h => by cases h
  | [a], _, h => by
    simp at h; subst h
    exact ⟨hn, trivial⟩
  | a :: c :: rest, h, h' => ⟨h.1, linked_snoc hn (c :: rest) h.2 (by simpa using h')⟩

theorem Gets.next {g : Graph} {b n : Nat} (h : g.Gets b) (hn : (b, n) ∈ g.edges) : g.Gets n := by
  obtain ⟨path, ⟨h1, h2⟩, h3⟩ := h
  refine ⟨path ++ [n], ⟨?_, linked_snoc hn path h2 h3⟩, by simp⟩
  cases path with
  | nil => cases h1
  | cons a rest => exact h1

theorem Gets.start (g : Graph) : g.Gets g.start := ⟨[g.start], ⟨rfl, trivial⟩, rfl⟩

/-- Sets of blocks that contain what follows contain each path. -/
theorem gets_closed {g : Graph} {S : Nat → Prop} (hs : S g.start) (hc : ∀ b n, S b → (b, n) ∈ g.edges → S n) {b : Nat}
    (h : g.Gets b) : S b := by
  obtain ⟨path, ⟨h1, h2⟩, h3⟩ := h
  have key : ∀ (path : List Nat) (a : Nat), S a → g.Linked (a :: path) → ∀ b ∈ a :: path, S b := by
    intro path
    induction path with
    | nil => intro a ha _ b hb; simp at hb; exact hb ▸ ha
    | cons c rest ih =>
      intro a ha hl b hb
      rcases List.mem_cons.1 hb with e | hb
      · exact e ▸ ha
      · exact ih c (hc a c ha hl.1) hl.2 b hb
  cases path with
  | nil => cases h1
  | cons a rest =>
    simp at h1; subst h1
    exact key rest _ hs h2 b (List.mem_of_getLast? h3)

theorem mem_succs {g : Graph} {b n : Nat} : n ∈ g.succs b ↔ (b, n) ∈ g.edges := by
  simp [Graph.succs]

/-- What holds in each step of `get_blocks`. -/
structure Going (g : Graph) (stack : List (Nat × Nat)) (visited : List Nat) : Prop where
  once : (stack.map (·.2)).Nodup
  seen : ∀ x ∈ stack, x.2 ∈ visited
  gets : ∀ b ∈ visited, g.Gets b
  start : g.start ∈ visited
  rest : ∀ b ∈ visited, ∀ j n, (g.succs b)[j]? = some n → n ∈ visited ∨ ∃ i ≤ j, (i, b) ∈ stack

/-- How many steps are left. -/
def Graph.left (g : Graph) (stack : List (Nat × Nat)) (visited : List Nat) : Nat :=
  (stack.map (fun x => (g.succs x.2).length + 1 - x.1)).sum +
    (((List.range g.count).filter (fun b => b ∉ visited)).map (fun b => (g.succs b).length + 1)).sum

theorem filter_sum (f : Nat → Nat) (visited : List Nat) (n : Nat) (hn : n ∉ visited) : ∀ bs : List Nat, bs.Nodup → n ∈ bs →
    ((bs.filter (fun b => b ∉ visited)).map f).sum = f n + ((bs.filter (fun b => b ∉ n :: visited)).map f).sum
  | [], _, h => by cases h
  | b :: bs, hd, h => by
    rw [List.nodup_cons] at hd
    by_cases e : b = n
    · subst e
      have : bs.filter (fun x => x ∉ b :: visited) = bs.filter (fun x => x ∉ visited) := by
        refine List.filter_congr (fun x hx => ?_)
        have : x ≠ b := fun e => hd.1 (e ▸ hx)
        simp [this]
      simp [hn]
      simpa using congrArg (fun l => (l.map f).sum) this.symm
    · have h' : n ∈ bs := by rcases List.mem_cons.1 h with e' | e' <;> [exact absurd e'.symm e; exact e']
      have ih := filter_sum f visited n hn bs hd.2 h'
      by_cases hv : b ∈ visited
      · simpa [hv, e] using ih
      · simp [hv, e] at ih ⊢
        omega

theorem walkBlocks_spec {g : Graph} (ht : ∀ s t, (s, t) ∈ g.edges → t < g.count) :
    ∀ (f : Nat) (stack : List (Nat × Nat)) (visited : List Nat), Going g stack visited →
      (∀ x ∈ stack, x.1 ≤ (g.succs x.2).length) → g.left stack visited < f →
      (g.walkBlocks f stack visited).Nodup ∧
        ∀ b, b ∈ g.walkBlocks f stack visited ↔ (0, b) ∈ stack ∨ (b ∉ visited ∧ g.Gets b)
  | 0, _, _, _, _, h => by omega
  | f + 1, [], visited, hg, _, _ => by
    refine ⟨by simp [Graph.walkBlocks], fun b => ?_⟩
    simp only [Graph.walkBlocks, List.not_mem_nil, false_or, false_iff]
    rintro ⟨h1, h2⟩
    refine h1 (gets_closed (S := (· ∈ visited)) hg.start (fun b n hb hn => ?_) h2)
    obtain ⟨j, hj⟩ := List.getElem?_of_mem (mem_succs.2 hn)
    rcases hg.rest b hb j n hj with h | ⟨_, _, h⟩
    · exact h
    · cases h
  | f + 1, (i, b) :: stack, visited, hg, hi, hl => by
    have hbv : b ∈ visited := hg.seen _ List.mem_cons_self
    have hib := hi _ List.mem_cons_self
    have honce := hg.once
    rw [List.map_cons, List.nodup_cons] at honce
    have hnot : ∀ k, (k, b) ∉ stack := fun k hk => honce.1 (List.mem_map.2 ⟨_, hk, rfl⟩)
    have hout : ∀ (r : List Nat) (P : Nat → Prop), r.Nodup → (∀ x, x ∈ r ↔ P x) → ¬ P b →
        ((if i = 0 then [b] else []) ++ r).Nodup ∧ ∀ x, x ∈ (if i = 0 then [b] else []) ++ r ↔ (i = 0 ∧ x = b) ∨ P x := by
      intro r P h1 h2 h3
      by_cases e : i = 0
      · subst e
        simp only [if_true, List.singleton_append, List.nodup_cons]
        exact ⟨⟨fun h => h3 ((h2 b).1 h), h1⟩, fun x => by simp [h2]⟩
      · simp only [e, if_false, List.nil_append, false_and, false_or]
        exact ⟨h1, h2⟩
    simp only [Graph.walkBlocks]
    cases hn : (g.succs b)[i]? with
    | none =>
      have hlen : i = (g.succs b).length := by
        have := List.getElem?_eq_none_iff.1 hn
        simp only at hib
        omega
      have hg' : Going g stack visited := by
        refine ⟨honce.2, fun x hx => hg.seen x (List.mem_cons_of_mem _ hx), hg.gets, hg.start, fun b' hb' j n' hj => ?_⟩
        rcases hg.rest b' hb' j n' hj with h | ⟨k, hk, h⟩
        · exact .inl h
        · rcases List.mem_cons.1 h with e | e
          · cases e
            have := (List.getElem?_eq_some_iff.1 hj).1
            omega
          · exact .inr ⟨k, hk, e⟩
      obtain ⟨h1, h2⟩ := walkBlocks_spec ht f stack visited hg' (fun x hx => hi x (List.mem_cons_of_mem _ hx)) (by
        simp only [Graph.left, List.map_cons, List.sum_cons] at hl ⊢; omega)
      obtain ⟨h3, h4⟩ := hout _ _ h1 h2 (by
        rintro (h | ⟨h, _⟩)
        · exact hnot 0 h
        · exact h hbv)
      refine ⟨h3, fun x => (h4 x).trans ?_⟩
      constructor
      · rintro (⟨e1, e2⟩ | h | h)
        · exact .inl (by rw [e1, e2]; exact List.mem_cons_self)
        · exact .inl (List.mem_cons_of_mem _ h)
        · exact .inr h
      · rintro (h | h)
        · rcases List.mem_cons.1 h with e | e
          · cases e; exact .inl ⟨rfl, rfl⟩
          · exact .inr (.inl e)
        · exact .inr (.inr h)
    | some n =>
      have hmem := mem_succs.1 (List.mem_of_getElem? hn)
      have hlt := (List.getElem?_eq_some_iff.1 hn).1
      by_cases hv : n ∈ visited
      · simp only [hv, if_true]
        have hg' : Going g ((i + 1, b) :: stack) visited := by
          refine ⟨hg.once, fun x hx => ?_, hg.gets, hg.start, fun b' hb' j n' hj => ?_⟩
          · rcases List.mem_cons.1 hx with e | e
            · exact e ▸ hbv
            · exact hg.seen x (List.mem_cons_of_mem _ e)
          · rcases hg.rest b' hb' j n' hj with h | ⟨k, hk, h⟩
            · exact .inl h
            · rcases List.mem_cons.1 h with e | e
              · cases e
                by_cases hij : j = i
                · subst hij
                  rw [hn] at hj; cases hj
                  exact .inl hv
                · exact .inr ⟨i + 1, by omega, List.mem_cons_self⟩
              · exact .inr ⟨k, hk, List.mem_cons_of_mem _ e⟩
        obtain ⟨h1, h2⟩ := walkBlocks_spec ht f _ visited hg' (fun x hx => by
          rcases List.mem_cons.1 hx with e | e
          · subst e; exact hlt
          · exact hi x (List.mem_cons_of_mem _ e)) (by
          simp only [Graph.left, List.map_cons, List.sum_cons] at hl ⊢; omega)
        obtain ⟨h3, h4⟩ := hout _ _ h1 h2 (by
          rintro (h | ⟨h, _⟩)
          · rcases List.mem_cons.1 h with e | e
            · cases e
            · exact hnot 0 e
          · exact h hbv)
        refine ⟨h3, fun x => (h4 x).trans ?_⟩
        constructor
        · rintro (⟨e1, e2⟩ | h | h)
          · exact .inl (by rw [e1, e2]; exact List.mem_cons_self)
          · rcases List.mem_cons.1 h with e | e
            · cases e
            · exact .inl (List.mem_cons_of_mem _ e)
          · exact .inr h
        · rintro (h | h)
          · rcases List.mem_cons.1 h with e | e
            · cases e; exact .inl ⟨rfl, rfl⟩
            · exact .inr (.inl (List.mem_cons_of_mem _ e))
          · exact .inr (.inr h)
      · simp only [hv, if_false]
        have hng : g.Gets n := Gets.next (hg.gets b hbv) hmem
        have hg' : Going g ((0, n) :: (i + 1, b) :: stack) (n :: visited) := by
          refine ⟨?_, fun x hx => ?_, fun x hx => ?_, List.mem_cons_of_mem _ hg.start, fun b' hb' j n' hj => ?_⟩
          · rw [List.map_cons, List.nodup_cons]
            refine ⟨fun h => ?_, hg.once⟩
            obtain ⟨x, hx, e⟩ := List.mem_map.1 h
            rcases List.mem_cons.1 hx with e' | e'
            · subst e'; exact hv (by rw [← show b = n from e]; exact hbv)
            · exact hv (by rw [← show x.2 = n from e]; exact hg.seen x (List.mem_cons_of_mem _ e'))
          · rcases List.mem_cons.1 hx with e | e
            · subst e; exact List.mem_cons_self
            · rcases List.mem_cons.1 e with e | e
              · subst e; exact List.mem_cons_of_mem _ hbv
              · exact List.mem_cons_of_mem _ (hg.seen x (List.mem_cons_of_mem _ e))
          · rcases List.mem_cons.1 hx with e | e
            · exact e ▸ hng
            · exact hg.gets x e
          · rcases List.mem_cons.1 hb' with e | hb'
            · subst e; exact .inr ⟨0, Nat.zero_le _, List.mem_cons_self⟩
            · rcases hg.rest b' hb' j n' hj with h | ⟨k, hk, h⟩
              · exact .inl (List.mem_cons_of_mem _ h)
              · rcases List.mem_cons.1 h with e | e
                · cases e
                  by_cases hij : j = i
                  · subst hij
                    rw [hn] at hj; cases hj
                    exact .inl List.mem_cons_self
                  · exact .inr ⟨i + 1, by omega, List.mem_cons_of_mem _ List.mem_cons_self⟩
                · exact .inr ⟨k, hk, List.mem_cons_of_mem _ (List.mem_cons_of_mem _ e)⟩
        obtain ⟨h1, h2⟩ := walkBlocks_spec ht f _ _ hg' (fun x hx => by
          rcases List.mem_cons.1 hx with e | e
          · subst e; exact Nat.zero_le _
          · rcases List.mem_cons.1 e with e | e
            · subst e; exact hlt
            · exact hi x (List.mem_cons_of_mem _ e)) (by
          have := filter_sum (fun b => (g.succs b).length + 1) visited n hv (List.range g.count) List.nodup_range
            (List.mem_range.2 (ht _ _ hmem))
          simp only [Graph.left, List.map_cons, List.sum_cons] at hl ⊢
          omega)
        obtain ⟨h3, h4⟩ := hout _ _ h1 h2 (by
          rintro (h | ⟨h, _⟩)
          · rcases List.mem_cons.1 h with e | e
            · cases e; exact hv hbv
            · rcases List.mem_cons.1 e with e | e
              · cases e
              · exact hnot 0 e
          · exact h (List.mem_cons_of_mem _ hbv))
        refine ⟨h3, fun x => (h4 x).trans ?_⟩
        constructor
        · rintro (⟨e1, e2⟩ | h | ⟨h, h'⟩)
          · exact .inl (by rw [e1, e2]; exact List.mem_cons_self)
          · rcases List.mem_cons.1 h with e | e
            · cases e; exact .inr ⟨hv, hng⟩
            · rcases List.mem_cons.1 e with e | e
              · cases e
              · exact .inl (List.mem_cons_of_mem _ e)
          · exact .inr ⟨fun hx => h (List.mem_cons_of_mem _ hx), h'⟩
        · rintro (h | ⟨h, h'⟩)
          · rcases List.mem_cons.1 h with e | e
            · cases e; exact .inl ⟨rfl, rfl⟩
            · exact .inr (.inl (List.mem_cons_of_mem _ (List.mem_cons_of_mem _ e)))
          · by_cases e : x = n
            · subst e; exact .inr (.inl List.mem_cons_self)
            · exact .inr (.inr ⟨fun hx => by rcases List.mem_cons.1 hx with e' | e' <;> [exact e e'; exact h e'], h'⟩)

theorem blocks_spec {g : Graph} (ht : ∀ s t, (s, t) ∈ g.edges → t < g.count) (hs : g.start < g.count) :
    g.blocks.Nodup ∧ ∀ b, b ∈ g.blocks ↔ g.Gets b := by
  have h := walkBlocks_spec ht (g.steps + 1) [(0, g.start)] [g.start] ?_ ?_ ?_
  · refine ⟨h.1, fun b => (h.2 b).trans ?_⟩
    constructor
    · rintro (h | h)
      · simp at h; exact h ▸ Gets.start g
      · exact h.2
    · intro h
      by_cases e : b = g.start
      · exact .inl (by simp [e])
      · exact .inr ⟨by simpa using e, h⟩
  · refine ⟨by simp, by simp, ?_, by simp, ?_⟩
    · intro b hb; simp at hb; exact hb ▸ Gets.start g
    · intro b hb j n _
      simp at hb
      exact .inr ⟨0, Nat.zero_le _, by simp [hb]⟩
  · simp
  · have := filter_sum (fun b => (g.succs b).length + 1) [] g.start (by simp) (List.range g.count) List.nodup_range
      (List.mem_range.2 hs)
    simp [Graph.left, Graph.steps] at this ⊢
    omega

/-! ### Graphs that are made -/

/-- Edges go from blocks with locations to blocks of the graph. -/
structure Sane (g : Graph) : Prop where
  src : ∀ s t, (s, t) ∈ g.edges → g.locs s ≠ []
  tgt : ∀ s t, (s, t) ∈ g.edges → t < g.count
  fresh : ∀ b, g.count ≤ b → g.locs b = []
  start : g.start < g.count

theorem Wf.sane {G : Graph} (h : Wf G) (s : Nat) {t : Nat} (ht : t < G.count) : Sane (G.linkOrMerge s t) where
  src a u hau := by
    rw [lm_locs]
    rcases (lm_edges h s t _ _).1 hau with ⟨v, h1, _⟩ | h1
    · exact h.src a v h1
    · rw [h1.1]; exact h1.2.2
  tgt a u hau := by
    rw [lm_count]
    rcases (lm_edges h s t _ _).1 hau with ⟨v, h1, h2⟩ | h1
    · rw [h2]; unfold moved; split
      · exact ht
      · exact h.tgt a v h1
    · rw [h1.2.1]; exact ht
  fresh b hb := by rw [lm_locs]; exact h.fresh b (by simpa using hb)
  start := by
    rw [lm_start, lm_count]; unfold moved; split
    · exact ht
    · exact h.start

/-- Nothing is known about exceptions. -/
def anyWorld : World := ⟨fun _ _ => False, fun _ _ => False, true⟩

theorem module_sane (p : Body) : Sane (moduleGraph p) := by
  obtain ⟨ψ, g⟩ := module_good anyWorld p
  exact g.grow.wf.sane _ (Nat.lt_of_lt_of_le (show 1 < 2 by omega) g.grow.ext.count)

theorem function_sane (args : Nat) (p : Body) : Sane (functionGraph args p) := by
  obtain ⟨ψ, g, -, -⟩ := function_good anyWorld args p
  exact g.grow.wf.sane _ (Nat.lt_of_lt_of_le (show 1 < 2 by omega) g.grow.ext.count)

theorem class_sane (p : Body) : Sane (classGraph p) := by
  obtain ⟨ψ, g⟩ := (body_good anyWorld p).1 [] Graph.init.new Graph.init.count (new_wf init_wf)
    (by show 2 < 3; omega) (fun t h => by cases h) (fun j t h => by cases h)
  exact g.grow.wf.sane _ (Nat.lt_of_lt_of_le (show 1 < 3 by omega) g.grow.ext.count)

theorem init_tidy : Tidy Graph.init 0 := ⟨fun _ _ => rfl, by show 0 < 2; omega⟩

theorem module_all (p : Body) (hf : p.noFinally = true) : (moduleGraph p).all.Perm p.locations := by
  have h := body_puts p [] hf init_tidy
  show (Graph.linkOrMerge _ _ _).all.Perm _
  rw [lm_all]
  exact h.all

theorem function_all (args : Nat) (p : Body) (hf : p.noFinally = true) :
    (functionGraph args p).all.Perm (args :: p.locations) := by
  have h1 := (leaf_puts init_tidy args).trans (newFrom_puts (init_tidy.add args) 0)
  have h2 := h1.trans (body_puts p [[(.ret, Graph.end_), (.raise none, Graph.end_)]] hf h1.tidy)
  show (Graph.linkOrMerge _ _ _).all.Perm _
  rw [lm_all]
  exact h2.all

theorem class_all (p : Body) (hf : p.noFinally = true) : (classGraph p).all.Perm p.locations := by
  have h1 := new_puts init_tidy
  have h2 := h1.trans (body_puts p [] hf h1.tidy)
  show (Graph.linkOrMerge _ _ _).all.Perm _
  rw [lm_all]
  exact h2.all

theorem flatMap_unique {f : Nat → List Nat} {l : Nat} : ∀ (bs : List Nat) {b b' : Nat}, (bs.flatMap f).Nodup → b ∈ bs →
    b' ∈ bs → l ∈ f b → l ∈ f b' → b = b'
  | a :: bs, b, b', hd, h1, h2, h3, h4 => by
    rw [List.flatMap_cons, List.nodup_append] at hd
    rcases List.mem_cons.1 h1 with e | k1 <;> rcases List.mem_cons.1 h2 with e' | k2
    · rw [e, e']
    · subst e
      exact absurd rfl (hd.2.2 l h3 l (List.mem_flatMap.2 ⟨b', k2, h4⟩))
    · subst e'
      exact absurd rfl (hd.2.2 l h4 l (List.mem_flatMap.2 ⟨b, k1, h3⟩))
    · exact flatMap_unique bs hd.2.1 k1 k2 h3 h4

/-- Locations that occur once are in one block. -/
theorem all_unique {g : Graph} (hd : g.all.Nodup) (h : Sane g) {l b b' : Nat} (h1 : l ∈ g.locs b) (h2 : l ∈ g.locs b') :
    b = b' := by
  have lt : ∀ b, l ∈ g.locs b → b < g.count := fun b hb => by
    by_cases e : b < g.count
    · exact e
    · rw [h.fresh b (by omega)] at hb; cases hb
  exact flatMap_unique _ hd (List.mem_range.2 (lt b h1)) (List.mem_range.2 (lt b' h2)) h1 h2

theorem flatMap_sublist {f : Nat → List Nat} : ∀ {bs : List Nat} {b : Nat}, b ∈ bs → (f b).Sublist (bs.flatMap f)
  | a :: bs, b, h => by
    rw [List.flatMap_cons]
    rcases List.mem_cons.1 h with e | e
    · exact e ▸ List.sublist_append_left _ _
    · exact (flatMap_sublist e).trans (List.sublist_append_right _ _)

theorem locs_nodup {g : Graph} (hd : g.all.Nodup) (h : Sane g) (b : Nat) : (g.locs b).Nodup := by
  by_cases e : b < g.count
  · exact (flatMap_sublist (List.mem_range.2 e)).nodup hd
  · rw [h.fresh b (by omega)]; exact List.nodup_nil

/-! ### Loops -/

/-- Where a location on a path is. -/
theorem along_split {g : Graph} {x : Nat} {w : List Nat} : ∀ (path : List Nat) {u : List Nat}, g.along path = u ++ x :: w →
    ∃ pre b post a d, path = pre ++ b :: post ∧ g.locs b = a ++ x :: d ∧ u = g.along pre ++ a ∧ w = d ++ g.along post
  | [], u, h => by simp [Graph.along] at h
  | b :: path, u, h => by
    have h' : g.locs b ++ g.along path = u ++ x :: w := h
    rcases List.append_eq_append_iff.1 h' with ⟨z, e1, e2⟩ | ⟨z, e1, e2⟩
    · obtain ⟨pre, b', post, a, d, i1, i2, i3, i4⟩ := along_split path e2
      exact ⟨b :: pre, b', post, a, d, by rw [i1]; rfl, i2, by rw [e1, i3]; simp [Graph.along], i4⟩
    · cases z with
      | nil =>
        simp only [List.nil_append] at e2
        obtain ⟨pre, b', post, a, d, i1, i2, i3, i4⟩ := along_split path (u := []) e2.symm
        exact ⟨b :: pre, b', post, a, d, by rw [i1]; rfl, i2, by
          rw [List.append_nil] at e1
          have : g.along (b :: pre) ++ a = g.locs b ++ (g.along pre ++ a) := by simp [Graph.along]
          rw [this, ← i3, e1, List.append_nil], i4⟩
      | cons y z =>
        simp only [List.cons_append, List.cons.injEq] at e2
        exact ⟨[], b, path, u, z, rfl, by rw [e1, e2.1], rfl, e2.2⟩

theorem linked_append {g : Graph} : ∀ (pre : List Nat) {rest : List Nat}, g.Linked (pre ++ rest) → g.Linked pre ∧ g.Linked rest
  | [], _, h => ⟨trivial, h⟩
  | [a], [], _ => ⟨trivial, trivial⟩
  | [a], b :: rest, h => ⟨trivial, h.2⟩
  | a :: b :: pre, rest, h => by
    obtain ⟨h1, h2⟩ := linked_append (b :: pre) (rest := rest) h.2
    exact ⟨⟨h.1, h1⟩, h2⟩

theorem linked_mid {g : Graph} {a b : Nat} : ∀ (pre : List Nat) {rest : List Nat}, g.Linked (pre ++ a :: b :: rest) →
    (a, b) ∈ g.edges := fun pre _ h => (linked_append pre h).2.1

theorem path_gets {g : Graph} {b : Nat} {pre rest : List Nat} (h : g.IsPath (pre ++ b :: rest)) : g.Gets b := by
  refine ⟨pre ++ [b], ⟨?_, ?_⟩, by simp⟩
  · cases pre with
    | nil => exact h.1
    | cons a pre => exact h.1
  · have := h.2
    rw [show pre ++ b :: rest = (pre ++ [b]) ++ rest by simp] at this
    exact (linked_append _ this).1

/-- If a location is executed again, an edge leads to its block from a block that begins with what is executed between. -/
theorem again {g : Graph} (hg : Sane g) (hd : g.all.Nodup) {path : List Nat} (hp : g.IsPath path) {u m v : List Nat} {t : Nat}
    (h : g.along path = u ++ t :: (m ++ t :: v)) :
    ∃ H p x r, t ∈ g.locs H ∧ (p, H) ∈ g.edges ∧ g.Gets p ∧ g.locs p = x :: r ∧ (x ∈ m ∨ x = t) := by
  obtain ⟨pre, H, post, a, d, e1, e2, -, e4⟩ := along_split path h
  have hn := locs_nodup hd hg H
  rw [e2, List.nodup_append] at hn
  have htd : t ∉ d := (List.nodup_cons.1 hn.2.1).1
  have hm : ∃ m', m = d ++ m' ∧ g.along post = m' ++ t :: v := by
    rcases List.append_eq_append_iff.1 e4 with ⟨z, f1, f2⟩ | ⟨z, f1, f2⟩
    · cases z with
      | nil => exact ⟨[], by simpa using f1.symm, by simpa using f2.symm⟩
      | cons y z =>
        simp only [List.cons_append, List.cons.injEq] at f2
        exact absurd (f1 ▸ (by rw [← f2.1]; simp)) htd
    · exact ⟨z, f1, f2⟩
  obtain ⟨m', m1, m2⟩ := hm
  obtain ⟨pre2, H2, post2, a2, d2, k1, k2, k3, -⟩ := along_split post m2
  have hH : H2 = H := all_unique hd hg (l := t) (by rw [k2]; simp) (by rw [e2]; simp)
  subst hH
  have hpath : path = (pre ++ H2 :: pre2) ++ H2 :: post2 := by rw [e1, k1]; simp
  rcases List.eq_nil_or_concat pre2 with e | ⟨pre3, p, e⟩
  · subst e
    have hpe : path = pre ++ H2 :: H2 :: post2 := by rw [hpath]; simp
    have hedge : (H2, H2) ∈ g.edges := linked_mid pre (by rw [← hpe]; exact hp.2)
    cases a2 with
    | nil => exact ⟨H2, H2, t, d2, by rw [k2]; simp, hedge, path_gets (hpe ▸ hp), k2, .inr rfl⟩
    | cons x a2 =>
      refine ⟨H2, H2, x, _, by rw [k2]; simp, hedge, path_gets (hpe ▸ hp), k2, .inl ?_⟩
      rw [m1, k3]; simp
  · subst e
    have hpe : path = (pre ++ H2 :: pre3) ++ p :: H2 :: post2 := by rw [hpath]; simp
    have hedge : (p, H2) ∈ g.edges := linked_mid (pre ++ H2 :: pre3) (by rw [← hpe]; exact hp.2)
    cases hl : g.locs p with
    | nil => exact absurd hl (hg.src _ _ hedge)
    | cons x r =>
      refine ⟨H2, p, x, r, by rw [k2]; simp, hedge, path_gets (hpe ▸ hp), hl, .inl ?_⟩
      rw [m1, k3]
      simp [Graph.along, hl]

theorem blockOf_eq {g : Graph} (hg : Sane g) (hd : g.all.Nodup) {t H : Nat} (h : t ∈ g.locs H) : g.blockOf t = some H := by
  have hlt : H < g.count := by
    by_cases e : H < g.count
    · exact e
    · rw [hg.fresh H (by omega)] at h; cases h
  unfold Graph.blockOf
  cases hf : (List.range g.count).find? (fun b => t ∈ g.locs b) with
  | none =>
    have := List.find?_eq_none.1 hf H (List.mem_range.2 hlt)
    simp [h] at this
  | some b =>
    have := List.find?_some hf
    rw [all_unique hd hg (b := b) (by simpa using this) h]

theorem onlyOnce_true {g : Graph} {ℓ : Loop} : ∀ {preds : List (Nat × Nat)}, onlyOnce g ℓ preds = .ok true →
    ∀ p H, (p, H) ∈ preds → ∀ x r, g.locs p = x :: r → p ∈ g.blocks → x ∈ ℓ.inside → ℓ.iter = some x
  | (q, _) :: preds, h, p, H, hm, x, r, hx, hb, hi => by
    unfold onlyOnce at h
    rcases List.mem_cons.1 hm with e | hm
    · cases e
      rw [hx] at h
      simp only [hi, hb, and_self, if_true] at h
      by_cases e : ℓ.iter = some x
      · exact e
      · simp only [e, if_false] at h
        cases h
    · have : onlyOnce g ℓ preds = .ok true := by
        cases hl : g.locs q with
        | nil => rw [hl] at h; cases h
        | cons y _ =>
          rw [hl] at h
          simp only at h
          split at h
          · split at h
            · exact h
            · cases h
          · exact h
      exact onlyOnce_true this p H hm x r hx hb hi

theorem oneIteration_sound {g : Graph} {ℓ : Loop} (hg : Sane g) (hd : g.all.Nodup) (h : oneIteration g ℓ = .ok true)
    {path : List Nat} (hp : g.IsPath path) {u m v : List Nat} (hs : ℓ.start ∈ ℓ.inside) (hi : ℓ.iter ≠ some ℓ.start)
    (hm : ∀ x ∈ m, x ∈ ℓ.inside ∧ ℓ.iter ≠ some x) : g.along path ≠ u ++ ℓ.start :: (m ++ ℓ.start :: v) := by
  intro ha
  obtain ⟨H, p, x, r, h1, h2, h3, h4, h5⟩ := again hg hd hp ha
  unfold oneIteration at h
  rw [blockOf_eq hg hd h1] at h
  simp only at h
  have hpm : (p, H) ∈ g.edges.filter (fun e => e.2 == H) := by simp [h2]
  have ho : onlyOnce g ℓ (g.edges.filter (fun e => e.2 == H)) = .ok true := by
    generalize g.edges.filter (fun e => e.2 == H) = preds at h hpm
    cases preds with
    | nil => cases hpm
    | cons _ _ => exact h
  have hx : x ∈ ℓ.inside ∧ ℓ.iter ≠ some x := by
    rcases h5 with e | e
    · exact hm x e
    · exact e ▸ ⟨hs, hi⟩
  exact hx.2 (onlyOnce_true ho p H hpm x r h4 (((blocks_spec hg.tgt hg.start).2 p).2 h3) hx.1)

theorem onlyOnce_total {g : Graph} (hg : Sane g) {ℓ : Loop} : ∀ {preds : List (Nat × Nat)}, (∀ e ∈ preds, e ∈ g.edges) →
    ∃ b, onlyOnce g ℓ preds = .ok b
  | [], _ => ⟨true, rfl⟩
  | (q, t) :: preds, h => by
    unfold onlyOnce
    have ih := onlyOnce_total hg (ℓ := ℓ) (preds := preds) (fun e he => h e (List.mem_cons_of_mem _ he))
    cases hl : g.locs q with
    | nil => exact absurd hl (hg.src q t (h _ List.mem_cons_self))
    | cons y _ =>
      simp only
      split
      · split
        · exact ih
        · exact ⟨false, rfl⟩
      · exact ih

theorem oneIteration_total {g : Graph} (hg : Sane g) (ℓ : Loop) : ∃ b, oneIteration g ℓ = .ok b := by
  unfold oneIteration
  split
  · exact ⟨false, rfl⟩
  · split
    · exact ⟨false, rfl⟩
    · exact onlyOnce_total hg (fun e he => (List.mem_filter.1 he).1)

/-! ### Parts -/

mutual
theorem stmt_parts : ∀ (s x : Stmt), x ∈ s.parts → x.locations.Sublist s.locations
  | .simple l, x, h => by simp [Stmt.parts] at h; rw [h]
  | .jump j l, x, h => by simp [Stmt.parts] at h; rw [h]
  | .cond t b e, x, h => by
    simp only [Stmt.parts, List.mem_cons, List.mem_append] at h
    rcases h with h | h | h
    · rw [h]
    · exact ((body_parts b x h).trans (List.sublist_append_left _ _)).cons _
    · exact ((body_parts e x h).trans (List.sublist_append_right _ _)).cons _
  | .loop t b e, x, h => by
    simp only [Stmt.parts, List.mem_cons, List.mem_append] at h
    rcases h with h | h | h
    · rw [h]
    · exact ((body_parts b x h).trans (List.sublist_append_left _ _)).cons _
    · exact ((body_parts e x h).trans (List.sublist_append_right _ _)).cons _
  | .each i t b e, x, h => by
    simp only [Stmt.parts, List.mem_cons, List.mem_append] at h
    rcases h with h | h | h
    · rw [h]
    · exact (((body_parts b x h).trans (List.sublist_append_left _ _)).cons _).cons _
    · exact (((body_parts e x h).trans (List.sublist_append_right _ _)).cons _).cons _
  | .enter i is b, x, h => by
    simp only [Stmt.parts, List.mem_cons] at h
    rcases h with h | h
    · rw [h]
    · exact ((body_parts b x h).trans (List.sublist_append_right _ _)).cons _
  | .try_ f r hs e l, x, h => by
    simp only [Stmt.parts, List.mem_cons, List.mem_append] at h
    simp only [Stmt.locations]
    rcases h with h | h | h | h | h | h
    · rw [h]; rfl
    · exact (stmt_parts f x h).trans (List.sublist_append_left _ _)
    · exact ((body_parts r x h).trans (List.sublist_append_left _ _)).trans (List.sublist_append_right _ _)
    · exact (((handlers_parts hs x h).trans (List.sublist_append_left _ _)).trans (List.sublist_append_right _ _)).trans
        (List.sublist_append_right _ _)
    · exact ((((body_parts e x h).trans (List.sublist_append_left _ _)).trans (List.sublist_append_right _ _)).trans
        (List.sublist_append_right _ _)).trans (List.sublist_append_right _ _)
    · exact ((((body_parts l x h).trans (List.sublist_append_right _ _)).trans (List.sublist_append_right _ _)).trans
        (List.sublist_append_right _ _)).trans (List.sublist_append_right _ _)
theorem body_parts : ∀ (p : Body) (x : Stmt), x ∈ p.parts → x.locations.Sublist p.locations
  | .nil, x, h => by simp [Body.parts] at h
  | .cons s rest, x, h => by
    simp only [Body.parts, List.mem_append] at h
    rcases h with h | h
    · exact (stmt_parts s x h).trans (List.sublist_append_left _ _)
    · exact (body_parts rest x h).trans (List.sublist_append_right _ _)
theorem handlers_parts : ∀ (hs : Handlers) (x : Stmt), x ∈ hs.parts → x.locations.Sublist hs.locations
  | .nil, x, h => by simp [Handlers.parts] at h
  | .cons _ name b rest, x, h => by
    simp only [Handlers.parts, List.mem_append] at h
    rcases h with h | h
    · exact ((body_parts b x h).trans (List.sublist_append_left _ _)).trans (List.sublist_append_right _ _)
    · exact ((handlers_parts rest x h).trans (List.sublist_append_right _ _)).trans (List.sublist_append_right _ _)
end

/-! ### Searching for paths -/

/-- Whether some path from the block begins with these locations. -/
def Graph.follows (g : Graph) : Nat → Nat → List Nat → Bool
  | 0, _, _ => true
  | f + 1, b, tr => tr.isPrefixOf (g.locs b) ||
      ((g.locs b).isPrefixOf tr && (g.succs b).any (fun n => g.follows f n (tr.drop (g.locs b).length)))

theorem follows_of_path {g : Graph} (hg : Sane g) : ∀ (f b : Nat) (path tr : List Nat), g.Linked (b :: path) →
    tr <+: g.along (b :: path) → tr.length < f → g.follows f b tr = true
  | 0, _, _, _, _, _, h => by omega
  | f + 1, b, path, tr, hl, ht, hf => by
    unfold Graph.follows
    rw [Bool.or_eq_true]
    have ht' : tr <+: g.locs b ++ g.along path := ht
    by_cases hp : tr <+: g.locs b
    · exact .inl (List.isPrefixOf_iff_prefix.2 hp)
    · refine .inr ?_
      have hp2 : g.locs b <+: tr := by
        rcases List.prefix_or_prefix_of_prefix ht' (List.prefix_append _ _) with h | h
        · exact absurd h hp
        · exact h
      obtain ⟨tr', e⟩ := hp2
      cases path with
      | nil =>
        simp only [Graph.along, List.flatMap_nil, List.append_nil] at ht'
        exact absurd ht' hp
      | cons n path =>
        have hne := hg.src _ _ hl.1
        rw [Bool.and_eq_true, List.any_eq_true]
        refine ⟨List.isPrefixOf_iff_prefix.2 ⟨tr', e⟩, n, mem_succs.2 hl.1, ?_⟩
        rw [← e, List.drop_left]
        refine follows_of_path hg f n path tr' hl.2 ?_ ?_
        · rw [← e] at ht'
          exact (List.prefix_append_right_inj _).1 ht'
        · have : 0 < (g.locs b).length := List.length_pos_iff.2 hne
          rw [← e, List.length_append] at hf
          omega

theorem no_path {g : Graph} (hg : Sane g) {tr : List Nat} (h : g.follows (tr.length + 1) g.start tr = false) (path : List Nat)
    (hp : g.IsPath path) : ¬ tr <+: g.along path := by
  intro ht
  cases path with
  | nil => cases hp.1
  | cons b path =>
    have e : b = g.start := Option.some.inj hp.1
    subst e
    rw [follows_of_path hg _ _ path tr hp.2 ht (Nat.lt_succ_self _)] at h
    cases h

end Verif.Flow
