import Verif.Model.DupExprs
import Mathlib.Logic.Basic

/-!
C136: Which complex expressions are reported.
-/

namespace Verif.DupExprs

def Tree.kind : Tree → Kind
  | .node k _ _ => k

def Tree.children : Tree → List Tree
  | .node _ _ ts => ts

/-- The node with a path and the kind of its parent; nothing if it is in an assertion. -/
def reach (parent : Kind) : Tree → List Nat → Option (Kind × Tree)
  | t, [] => if t.kind = .assert then none else some (parent, t)
  | t, i :: p => if t.kind = .assert then none else t.children[i]?.bind fun u => reach t.kind u p

/-- An expression that is complex. -/
def Complex (parent : Kind) (t : Tree) : Prop := isListed t.kind = true ∧ ∃ n ≥ 8, complexity parent t = some n

theorem complexityAll_get {k : Kind} : ∀ (ts : List Tree) (n i : Nat) (u : Tree), complexityAll k ts = some n → ts[i]? = some u → ∃ m ≤ n, complexity k u = some m
  | [], n, i, u, _, h => by simp at h
  | t :: ts, n, i, u, hc, h => by
    rw [complexityAll] at hc
    simp only [Option.bind_eq_some_iff, Option.map_eq_some_iff] at hc
    obtain ⟨a, ha, b, hb, rfl⟩ := hc
    cases i with
    | zero =>
      simp only [List.getElem?_cons_zero, Option.some.injEq] at h
      exact ⟨a, by omega, h ▸ ha⟩
    | succ i =>
      obtain ⟨m, hm, h⟩ := complexityAll_get ts b i u hb (by simpa using h)
      exact ⟨m, by omega, h⟩

/-- Parts of expressions are not more complex. -/
theorem complexity_reach : ∀ (p : List Nat) (parent : Kind) (t : Tree) (n : Nat) (par : Kind) (u : Tree), complexity parent t = some n → reach parent t p = some (par, u) →
    ∃ m ≤ n, complexity par u = some m
  | [], parent, t, n, par, u, hc, h => by
    rw [reach] at h
    split at h
    · cases h
    · cases h
      exact ⟨n, Nat.le_refl _, hc⟩
  | i :: p, parent, .node k l ts, n, par, u, hc, h => by
    rw [reach] at h
    split at h
    · cases h
    · simp only [Option.bind_eq_some_iff, Tree.children, Tree.kind] at h
      obtain ⟨v, hv, h⟩ := h
      rw [complexity] at hc
      split at hc
      · cases hc
      · simp only [Option.map_eq_some_iff] at hc
        obtain ⟨b, hb, rfl⟩ := hc
        obtain ⟨m, hm, h1⟩ := complexityAll_get ts b i v hb hv
        obtain ⟨m', hm', h2⟩ := complexity_reach p k v m par u h1 h
        exact ⟨m', by omega, h2⟩

theorem reach_node {parent k : Kind} {l : Str} {ts : List Tree} (hk : k ≠ .assert) (p : List Nat) (par : Kind) (u : Tree) :
    reach parent (.node k l ts) p = some (par, u) ↔
      (p = [] ∧ par = parent ∧ u = .node k l ts) ∨ ∃ i q v, p = i :: q ∧ ts[i]? = some v ∧ reach k v q = some (par, u) := by
  cases p with
  | nil => simp [reach, Tree.kind, hk, eq_comm]
  | cons i q =>
    rw [reach, if_neg (by simpa [Tree.kind] using hk)]
    simp only [Option.bind_eq_some_iff, Tree.children, Tree.kind, reduceCtorEq, false_and, false_or, List.cons.injEq]
    constructor
    · rintro ⟨v, h1, h2⟩
      exact ⟨i, q, v, ⟨rfl, rfl⟩, h1, h2⟩
    · rintro ⟨_, _, v, ⟨rfl, rfl⟩, h1, h2⟩
      exact ⟨v, h1, h2⟩

mutual
theorem collect_mem : ∀ (t : Tree) (path : List Nat) (parent : Kind) (q : List Nat) (u : Tree),
    (q, u) ∈ collect path parent t ↔ ∃ p par, q = path ++ p ∧ reach parent t p = some (par, u) ∧ Complex par u
  | .node k l ts, path, parent, q, u => by
    by_cases hk : k = .assert
    · subst hk
      rw [collect, if_pos rfl]
      simp only [List.not_mem_nil, false_iff, not_exists, not_and]
      intro p par _ h
      cases p <;> simp [reach, Tree.kind] at h
    · have hall := collectAll_mem ts path 0 k q u
      have hchild : (∃ j p par v, q = path ++ (0 + j) :: p ∧ ts[j]? = some v ∧ reach k v p = some (par, u) ∧ Complex par u) ↔
          ∃ p par, p ≠ [] ∧ q = path ++ p ∧ reach parent (.node k l ts) p = some (par, u) ∧ Complex par u := by
        constructor
        · rintro ⟨j, p, par, v, h1, h2, h3, h4⟩
          exact ⟨j :: p, par, by simp, by simpa using h1, (reach_node hk _ _ _).2 (.inr ⟨j, p, v, rfl, h2, h3⟩), h4⟩
        · rintro ⟨p, par, h0, h1, h2, h3⟩
          rcases (reach_node hk _ _ _).1 h2 with ⟨h, -⟩ | ⟨i, r, v, rfl, h4, h5⟩
          · exact absurd h h0
          · exact ⟨i, r, par, v, by simpa using h1, h4, h5, h3⟩
      have hroot : ∀ par, reach parent (.node k l ts) [] = some (par, u) ↔ par = parent ∧ u = .node k l ts := by
        intro par
        rw [reach_node hk]
        simp
      have hnot : ¬ Complex parent (.node k l ts) → ((q, u) ∈ collectAll path 0 k ts ↔
          ∃ p par, q = path ++ p ∧ reach parent (.node k l ts) p = some (par, u) ∧ Complex par u) := by
        intro hn
        rw [hall, hchild]
        constructor
        · rintro ⟨p, par, -, h⟩
          exact ⟨p, par, h⟩
        · rintro ⟨p, par, h1, h2, h3⟩
          refine ⟨p, par, ?_, h1, h2, h3⟩
          rintro rfl
          obtain ⟨rfl, rfl⟩ := (hroot par).1 h2
          exact hn h3
      rw [collect, if_neg hk]
      split
      · rename_i hl
        split
        · rename_i hc
          exact hnot (by rintro ⟨-, n, -, h⟩; rw [hc] at h; cases h)
        · rename_i n hc
          split
          · rename_i hn
            have hcx : Complex parent (.node k l ts) := ⟨hl, n, hn, hc⟩
            rw [List.mem_cons, hall, hchild]
            constructor
            · rintro (h | ⟨p, par, -, h⟩)
              · cases h
                exact ⟨[], parent, by simp, (hroot _).2 ⟨rfl, rfl⟩, hcx⟩
              · exact ⟨p, par, h⟩
            · rintro ⟨p, par, h1, h2, h3⟩
              by_cases hp : p = []
              · subst hp
                obtain ⟨rfl, rfl⟩ := (hroot par).1 h2
                exact .inl (by simp [h1])
              · exact .inr ⟨p, par, hp, h1, h2, h3⟩
          · rename_i hn
            simp only [List.not_mem_nil, false_iff]
            rintro ⟨p, par, -, h2, -, m, hm, h3⟩
            obtain ⟨m', hm', h4⟩ := complexity_reach p parent _ n par u hc h2
            rw [h3] at h4
            cases h4
            omega
      · rename_i hl
        exact hnot (by rintro ⟨h, -⟩; exact hl h)

theorem collectAll_mem : ∀ (ts : List Tree) (path : List Nat) (i : Nat) (parent : Kind) (q : List Nat) (u : Tree),
    (q, u) ∈ collectAll path i parent ts ↔
      ∃ j p par v, q = path ++ (i + j) :: p ∧ ts[j]? = some v ∧ reach parent v p = some (par, u) ∧ Complex par u
  | [], path, i, parent, q, u => by simp [collectAll]
  | t :: ts, path, i, parent, q, u => by
    rw [collectAll, List.mem_append, collect_mem t (path ++ [i]) parent q u, collectAll_mem ts path (i + 1) parent q u]
    constructor
    · rintro (⟨p, par, h1, h2⟩ | ⟨j, p, par, v, h1, h2⟩)
      · exact ⟨0, p, par, t, by simpa using h1, rfl, h2⟩
      · exact ⟨j + 1, p, par, v, by rw [h1]; congr 2; omega, by simpa using h2⟩
    · rintro ⟨j, p, par, v, h1, h2, h3⟩
      cases j with
      | zero =>
        simp only [List.getElem?_cons_zero, Option.some.injEq] at h2
        subst h2
        exact .inl ⟨p, par, by simpa using h1, h3⟩
      | succ j => exact .inr ⟨j, p, par, v, by rw [h1]; congr 2; omega, by simpa using h2, h3⟩
end

/-- C136: The expressions that are looked at are all complex ones that are not in assertions. -/
theorem C136_recorded (root : Tree) (p : List Nat) (t : Tree) :
    (p, t) ∈ collect [] .other root ↔ ∃ parent, reach .other root p = some (parent, t) ∧ isListed t.kind = true ∧ ∃ n ≥ 8, complexity parent t = some n := by
  rw [collect_mem]
  simp [Complex]

/-- A node that may be in a complex expression: no subscript or attribute in an assignment, and no call of a function that may do more than to return a value. -/
def Allowed (parent k : Kind) : Prop :=
  (k = .attribute ∨ k = .subscript → parent ≠ .assign) ∧
    ∀ f, k = .call f → f ∈ ["abs", "all", "any", "chr", "filter", "int", "len", "map", "max", "min", "ord", "reversed", "round", "sorted", "sqrt", "str", "sum"].map String.toList

mutual
def Valid (parent : Kind) : Tree → Prop
  | .node k _ ts => Allowed parent k ∧ ValidAll k ts

def ValidAll (parent : Kind) : List Tree → Prop
  | [] => True
  | t :: ts => Valid parent t ∧ ValidAll parent ts
end

mutual
/-- One for each name, constant, attribute and use of `and`, `or` and comparisons, two for each other operator. -/
def weight : Tree → Nat
  | .node k _ ts =>
    weightAll ts + if k = .binOp then 2 else if k = .boolOp ∨ k = .compare then ts.length - 1 else if k = .name ∨ k = .const ∨ k = .attribute then 1 else 0

def weightAll : List Tree → Nat
  | [] => 0
  | t :: ts => weight t + weightAll ts
end

theorem invalid_iff (parent k : Kind) : invalid parent k = false ↔ Allowed parent k := by
  have hf : ∀ f : Str, f ∈ exprFunctions ↔
      f ∈ ["abs", "all", "any", "chr", "filter", "int", "len", "map", "max", "min", "ord", "reversed", "round", "sorted", "sqrt", "str", "sum"].map String.toList := by
    have h1 : ∀ f ∈ exprFunctions, f ∈
        ["abs", "all", "any", "chr", "filter", "int", "len", "map", "max", "min", "ord", "reversed", "round", "sorted", "sqrt", "str", "sum"].map String.toList := by
      decide +kernel
    have h2 : ∀ f ∈ ["abs", "all", "any", "chr", "filter", "int", "len", "map", "max", "min", "ord", "reversed", "round", "sorted", "sqrt", "str", "sum"].map String.toList,
        f ∈ exprFunctions := by decide +kernel
    exact fun f => ⟨h1 f, h2 f⟩
  cases k with
  | call f =>
    simp only [invalid, Allowed, reduceCtorEq, or_self, false_imp_iff, true_and, Kind.call.injEq, forall_eq', decide_eq_false_iff_not, not_not]
    exact hf f
  | _ => simp [invalid, Allowed]

theorem extra_eq (k : Kind) (n : Nat) :
    extra n k = if k = .binOp then 2 else if k = .boolOp ∨ k = .compare then n - 1 else if k = .name ∨ k = .const ∨ k = .attribute then 1 else 0 := by
  cases k <;> simp [extra]

mutual
/-- C136: The complexity is the number of names, constants, attributes and operators, with arithmetical ones twice, if all that is called is a function for expressions. -/
theorem C136_complexity : ∀ (t : Tree) (parent : Kind) (n : Nat), complexity parent t = some n ↔ Valid parent t ∧ n = weight t
  | .node k l ts, parent, n => by
    rw [complexity, Valid, weight, ← invalid_iff, ← extra_eq]
    by_cases h : invalid parent k = true
    · simp [h]
    · rw [if_neg h]
      simp only [Bool.not_eq_true] at h
      simp only [Option.map_eq_some_iff, complexityAll_iff ts k, h, true_and]
      constructor
      · rintro ⟨m, ⟨h1, rfl⟩, rfl⟩
        exact ⟨h1, by omega⟩
      · rintro ⟨h1, rfl⟩
        exact ⟨_, ⟨h1, rfl⟩, by omega⟩

theorem complexityAll_iff : ∀ (ts : List Tree) (parent : Kind) (n : Nat), complexityAll parent ts = some n ↔ ValidAll parent ts ∧ n = weightAll ts
  | [], parent, n => by simp [complexityAll, ValidAll, weightAll, eq_comm]
  | t :: ts, parent, n => by
    rw [complexityAll, ValidAll, weightAll]
    simp only [Option.bind_eq_some_iff, Option.map_eq_some_iff, C136_complexity t parent, complexityAll_iff ts parent]
    constructor
    · rintro ⟨a, ⟨h1, rfl⟩, b, ⟨h2, rfl⟩, rfl⟩
      exact ⟨⟨h1, h2⟩, rfl⟩
    · rintro ⟨⟨h1, h2⟩, rfl⟩
      exact ⟨_, ⟨h1, rfl⟩, _, ⟨h2, rfl⟩, rfl⟩
end

/-! ### The order -/

mutual
theorem collect_order : ∀ (t : Tree) (path : List Nat) (parent : Kind), path ≠ [] ∨ isListed t.kind = false →
    (collect path parent t).Pairwise fun x y => y.1 ≠ x.1.dropLast
  | .node k l ts, path, parent, h => by
    have hall := collectAll_order ts path 0 k
    rw [collect]
    split
    · simp
    · split
      · split
        · exact hall
        · split
          · refine List.pairwise_cons.2 ⟨?_, hall⟩
            rintro ⟨q, u⟩ hq he
            obtain ⟨j, p, par, v, h1, -⟩ := (collectAll_mem ts path 0 k q u).1 hq
            have hlen := congrArg List.length he
            simp only [h1, List.length_append, List.length_cons, List.length_dropLast] at hlen
            omega
          · simp
      · exact hall

theorem collectAll_order : ∀ (ts : List Tree) (path : List Nat) (i : Nat) (parent : Kind), (collectAll path i parent ts).Pairwise fun x y => y.1 ≠ x.1.dropLast
  | [], path, i, parent => by simp [collectAll]
  | t :: ts, path, i, parent => by
    rw [collectAll]
    refine List.pairwise_append.2 ⟨collect_order t (path ++ [i]) parent (.inl (by simp)), collectAll_order ts path (i + 1) parent, ?_⟩
    rintro ⟨q, u⟩ hq ⟨q', u'⟩ hq' he
    obtain ⟨p, par, h1, -⟩ := (collect_mem t _ parent q u).1 hq
    obtain ⟨j, p', par', v, h2, -⟩ := (collectAll_mem ts path (i + 1) parent q' u').1 hq'
    simp only at he
    rw [h1, h2] at he
    by_cases hp : p = []
    · have hlen := congrArg List.length he
      simp [hp] at hlen
    · rw [List.dropLast_append_of_ne_nil hp, List.append_assoc] at he
      have := List.append_cancel_left he
      simp only [List.singleton_append, List.cons.injEq] at this
      omega
end

theorem keys_mem (str : Tree → Str) : ∀ (occs : List Occ) (s : Str), s ∈ keys str occs ↔ ∃ o ∈ occs, str o.2 = s
  | [], s => by simp [keys]
  | o :: occs, s => by
    rw [keys, List.mem_cons, List.mem_filter, keys_mem str occs s]
    simp only [ne_eq, decide_not, Bool.not_eq_eq_eq_not, Bool.not_true, decide_eq_false_iff_not, List.mem_cons, exists_eq_or_imp]
    constructor
    · rintro (h | ⟨h, -⟩)
      · exact .inl h.symm
      · exact .inr h
    · rintro (h | h)
      · exact .inl h.symm
      · by_cases hs : s = str o.2
        · exact .inl hs
        · exact .inr ⟨h, hs⟩

theorem keys_nodup (str : Tree → Str) : ∀ occs : List Occ, (keys str occs).Nodup
  | [] => by simp [keys]
  | o :: occs => by
    rw [keys, List.nodup_cons]
    exact ⟨by simp, (keys_nodup str occs).filter _⟩

/-- Keys are in the order of the first nodes with them. -/
theorem keys_split (str : Tree → Str) : ∀ (occs : List Occ) (pre post : List Str) (s : Str), keys str occs = pre ++ s :: post →
    ∃ A o B, occs = A ++ o :: B ∧ str o.2 = s ∧ ∀ x ∈ A, str x.2 ∈ pre
  | [], pre, post, s, h => by simp [keys] at h
  | o :: occs, pre, post, s, h => by
    rw [keys] at h
    cases pre with
    | nil =>
      simp only [List.nil_append, List.cons.injEq] at h
      exact ⟨[], o, occs, rfl, h.1, by simp⟩
    | cons c pre =>
      simp only [List.cons_append, List.cons.injEq] at h
      obtain ⟨hc, h⟩ := h
      obtain ⟨l1, l2, e1, e2, e3⟩ := List.filter_eq_append_iff.1 h
      obtain ⟨m1, m2, f1, f2, f3, f4⟩ := List.filter_eq_cons_iff.1 e3
      obtain ⟨A, o', B, g1, g2, g3⟩ := keys_split str occs (l1 ++ m1) m2 s (by rw [e1, f1]; simp)
      refine ⟨o :: A, o', B, by rw [g1]; rfl, g2, fun x hx => ?_⟩
      rcases List.mem_cons.1 hx with rfl | hx
      · simp [hc]
      · rcases List.mem_append.1 (g3 x hx) with h | h
        · by_cases he : str x.2 = str o.2
          · simp [he, hc]
          · refine List.mem_cons_of_mem _ ?_
            rw [← e2]
            exact List.mem_filter.2 ⟨h, by simpa using he⟩
        · have := f2 _ h
          simp only [ne_eq, decide_not, Bool.not_eq_eq_eq_not, Bool.not_true, decide_eq_false_iff_not, not_not] at this
          simp [this, hc]

/-! ### What is reported -/

theorem report_sound (str : Tree → Str) (occs : List Occ) : ∀ (ks : List Str) (emitted : List (List Nat)) (s : Str) (es : List Occ), (s, es) ∈ report str occs emitted ks →
    s ∈ ks ∧ es = exprs str occs s ∧ 2 ≤ es.length ∧ ∀ o, es.head? = some o → o.1.dropLast ∉ emitted
  | [], emitted, s, es, h => by simp [report] at h
  | k :: ks, emitted, s, es, h => by
    rw [report] at h
    split at h
    · rename_i h2
      split at h
      · rename_i hp
        rcases List.mem_cons.1 h with he | h
        · cases he
          refine ⟨List.mem_cons_self, rfl, h2, fun o ho => ?_⟩
          simpa [ho] using hp
        · obtain ⟨h1, h2, h3, h4⟩ := report_sound str occs ks _ s es h
          exact ⟨List.mem_cons_of_mem _ h1, h2, h3, fun o ho hm => h4 o ho (by simp [hm])⟩
      · obtain ⟨h1, h2, h3, h4⟩ := report_sound str occs ks _ s es h
        exact ⟨List.mem_cons_of_mem _ h1, h2, h3, fun o ho hm => h4 o ho (by simp [hm])⟩
    · obtain ⟨h1, h2⟩ := report_sound str occs ks _ s es h
      exact ⟨List.mem_cons_of_mem _ h1, h2⟩

/-- A node of a repeated expression. -/
def Repeated (str : Tree → Str) (occs : List Occ) (o : Occ) : Prop := o ∈ occs ∧ 2 ≤ (exprs str occs (str o.2)).length

/-- A text before which others have been looked at. -/
theorem report_split (str : Tree → Str) (occs : List Occ) : ∀ (pre : List Str) (emitted : List (List Nat)) (s : Str) (post : List Str), s ∉ pre → s ∉ post →
    2 ≤ (exprs str occs s).length →
    ((s, exprs str occs s) ∈ report str occs emitted (pre ++ s :: post) ↔
      ∀ o, (exprs str occs s).head? = some o → o.1.dropLast ∉ emitted ∧ ∀ x, Repeated str occs x → str x.2 ∈ pre → o.1.dropLast ≠ x.1)
  | [], emitted, s, post, _, hpost, h2 => by
    rw [List.nil_append, report]
    rw [if_pos h2]
    have hnot : ∀ em, (s, exprs str occs s) ∉ report str occs em post := fun em h => hpost (report_sound str occs post em s _ h).1
    cases hh : (exprs str occs s).head? with
    | none => simp
    | some o =>
      simp only [Option.map_some, Option.all_some, decide_eq_true_eq, Option.some.injEq, List.not_mem_nil, false_imp_iff, implies_true, and_true, forall_eq']
      split
      · rename_i h; simp [h]
      · rename_i h; simp only [hnot, false_iff]; exact fun hc => h hc
  | k :: pre, emitted, s, post, hpre, hpost, h2 => by
    simp only [List.mem_cons, not_or] at hpre
    have hne : ∀ es, (s, exprs str occs s) ≠ (k, es) := fun es h => hpre.1 (by cases h; rfl)
    rw [List.cons_append, report]
    by_cases hk : 2 ≤ (exprs str occs k).length
    · rw [if_pos hk]
      have ih := report_split str occs pre (emitted ++ (exprs str occs k).map (·.1)) s post hpre.2 hpost h2
      have hgoal : (∀ o, (exprs str occs s).head? = some o → o.1.dropLast ∉ emitted ++ (exprs str occs k).map (·.1) ∧ ∀ x, Repeated str occs x → str x.2 ∈ pre → o.1.dropLast ≠ x.1) ↔
          ∀ o, (exprs str occs s).head? = some o → o.1.dropLast ∉ emitted ∧ ∀ x, Repeated str occs x → str x.2 ∈ k :: pre → o.1.dropLast ≠ x.1 := by
        refine forall_congr' fun o => imp_congr_right fun _ => ?_
        simp only [List.mem_append, List.mem_map, not_or, not_exists, not_and, List.mem_cons, exprs, List.mem_filter, decide_eq_true_eq]
        constructor
        · rintro ⟨⟨a, b⟩, c⟩
          refine ⟨a, fun x hx hm he => ?_⟩
          rcases hm with hm | hm
          · exact b x ⟨hx.1, hm⟩ he.symm
          · exact c x hx hm he
        · rintro ⟨a, c⟩
          refine ⟨⟨a, fun x hx he => ?_⟩, fun x hx hm => c x hx (.inr hm)⟩
          exact c x ⟨hx.1, by rw [hx.2]; exact hk⟩ (.inl hx.2) he.symm
      rw [← hgoal, ← ih]
      split
      · simp [hne]
      · exact Iff.rfl
    · rw [if_neg hk, report_split str occs pre emitted s post hpre.2 hpost h2]
      refine forall_congr' fun o => imp_congr_right fun _ => and_congr_right fun _ => ?_
      refine forall_congr' fun x => imp_congr_right fun hx => ?_
      simp only [List.mem_cons]
      constructor
      · rintro h (hm | hm)
        · exact absurd hx.2 (by rw [hm]; exact hk)
        · exact h hm
      · exact fun h hm => h (.inr hm)

/-- C136: What is reported are all texts of at least two complex expressions, with all of these, unless the first one of them is directly in one whose text is repeated. -/
theorem C136_reported (str : Tree → Str) (root : Tree) (hroot : isListed root.kind = false) (s : Str) (es : List Occ) :
    (s, es) ∈ duplicateExprs str root ↔
      es = (collect [] .other root).filter (fun o => str o.2 = s) ∧ 2 ≤ es.length ∧
        ∀ o, es.head? = some o → ¬ ∃ x ∈ collect [] .other root, x.1 = o.1.dropLast ∧ 2 ≤ ((collect [] .other root).filter fun y => str y.2 = str x.2).length := by
  unfold duplicateExprs
  have hord := collect_order root [] .other (.inr hroot)
  have hpath : ∀ o ∈ collect [] .other root, o.1 ≠ [] := by
    rintro ⟨p, t⟩ ho rfl
    obtain ⟨parent, h1, h2, -⟩ := (C136_recorded root [] t).1 ho
    rw [reach] at h1
    split at h1
    · cases h1
    · cases h1
      rw [hroot] at h2
      cases h2
  generalize collect [] .other root = occs at hord hpath
  dsimp only
  have main : 2 ≤ (exprs str occs s).length → ((s, exprs str occs s) ∈ report str occs [] (keys str occs) ↔
      ∀ o, (exprs str occs s).head? = some o → ¬ ∃ x ∈ occs, x.1 = o.1.dropLast ∧ 2 ≤ (occs.filter fun y => str y.2 = str x.2).length) := by
    intro h2
    have hmem : s ∈ keys str occs := by
      obtain ⟨o, ho⟩ : ∃ o, o ∈ exprs str occs s := List.exists_mem_of_length_pos (by omega)
      simp only [exprs, List.mem_filter, decide_eq_true_eq] at ho
      exact (keys_mem str occs s).2 ⟨o, ho⟩
    obtain ⟨pre, post, hk⟩ := List.append_of_mem hmem
    have hnd := keys_nodup str occs
    rw [hk] at hnd
    obtain ⟨A, o', B, hocc, ho', hA⟩ := keys_split str occs pre post s hk
    have hnd' := List.nodup_append.1 hnd
    have hspre : s ∉ pre := fun h => hnd'.2.2 s h s List.mem_cons_self rfl
    have hspost : s ∉ post := (List.nodup_cons.1 hnd'.2.1).1
    have hhead : (exprs str occs s).head? = some o' := by
      have hAe : A.filter (fun o => decide (str o.2 = s)) = [] := by
        rw [List.filter_eq_nil_iff]
        intro x hx he
        simp only [decide_eq_true_eq] at he
        exact hspre (he ▸ hA x hx)
      simp [exprs, hocc, List.filter_append, hAe, ho']
    rw [hk, report_split str occs pre [] s post hspre hspost h2, hhead]
    simp only [Option.some.injEq, forall_eq', List.not_mem_nil, not_false_eq_true, true_and, not_exists, not_and]
    constructor
    · intro h x hx he hx2
      by_cases hxp : str x.2 ∈ pre
      · exact h x ⟨hx, hx2⟩ hxp he.symm
      · have hxB : x ∈ o' :: B := by
          rw [hocc] at hx
          rcases List.mem_append.1 hx with hx | hx
          · exact absurd (hA x hx) hxp
          · exact hx
        rw [hocc] at hord
        have hp := (List.pairwise_append.1 hord).2.1
        rcases List.mem_cons.1 hxB with rfl | hxB
        · have h0 := hpath x hx
          have hlen := congrArg List.length he
          rw [List.length_dropLast] at hlen
          have := List.length_pos_iff.2 h0
          omega
        · exact (List.pairwise_cons.1 hp).1 x hxB he
    · intro h x hx _ he
      exact h x hx.1 he.symm hx.2
  constructor
  · intro h
    obtain ⟨-, he, h2, -⟩ := report_sound str occs _ _ s es h
    subst he
    exact ⟨rfl, h2, (main h2).1 h⟩
  · rintro ⟨rfl, h2, h⟩
    exact (main h2).2 h

/-! ### Parts of expressions -/

/-- A tree in another one. -/
inductive Part (s : Tree) : Tree → Prop where
  | refl : Part s s
  | child {t u : Tree} (ht : t ∈ u.children) (h : Part s t) : Part s u

theorem Part.trans {s t u : Tree} (h : Part s t) (h' : Part t u) : Part s u := by
  induction h' with
  | refl => exact h
  | child ht _ ih => exact .child ht ih

theorem reach_part : ∀ (p : List Nat) (parent : Kind) (t : Tree) (par : Kind) (u : Tree), reach parent t p = some (par, u) → Part u t
  | [], parent, t, par, u, h => by
    rw [reach] at h
    split at h
    · cases h
    · cases h; exact .refl
  | i :: p, parent, t, par, u, h => by
    rw [reach] at h
    split at h
    · cases h
    · simp only [Option.bind_eq_some_iff] at h
      obtain ⟨v, hv, h⟩ := h
      exact .child (List.mem_of_getElem? hv) (reach_part p _ v par u h)

/-- The node with the path to the parent is the parent. -/
theorem reach_parent : ∀ (p : List Nat) (parent : Kind) (t : Tree) (par par' : Kind) (u u' : Tree), p ≠ [] → reach parent t p = some (par, u) →
    reach parent t p.dropLast = some (par', u') → u ∈ u'.children
  | [], _, _, _, _, _, _, h, _, _ => absurd rfl h
  | [i], parent, t, par, par', u, u', _, h, h' => by
    rw [List.dropLast_singleton, reach] at h'
    rw [reach] at h
    split at h
    · cases h
    · rename_i ha
      rw [if_neg ha] at h'
      cases h'
      simp only [Option.bind_eq_some_iff] at h
      obtain ⟨v, hv, h⟩ := h
      rw [reach] at h
      split at h
      · cases h
      · cases h
        exact List.mem_of_getElem? hv
  | i :: j :: p, parent, t, par, par', u, u', _, h, h' => by
    rw [List.dropLast_cons_of_ne_nil (by simp), reach] at h'
    rw [reach] at h
    split at h
    · cases h
    · rename_i ha
      rw [if_neg ha] at h'
      simp only [Option.bind_eq_some_iff] at h h'
      obtain ⟨v, hv, h⟩ := h
      obtain ⟨v', hv', h'⟩ := h'
      rw [hv] at hv'
      cases hv'
      exact reach_parent (j :: p) _ v par par' u u' (by simp) h h'

mutual
def Tree.size : Tree → Nat
  | .node _ _ ts => 1 + sizeAll ts

def sizeAll : List Tree → Nat
  | [] => 0
  | t :: ts => t.size + sizeAll ts
end

theorem size_mem : ∀ (ts : List Tree) (t : Tree), t ∈ ts → t.size ≤ sizeAll ts
  | [], t, h => by simp at h
  | u :: ts, t, h => by
    rw [sizeAll]
    rcases List.mem_cons.1 h with rfl | h
    · omega
    · have := size_mem ts t h
      omega

theorem size_child {t u : Tree} (h : t ∈ u.children) : t.size < u.size := by
  obtain ⟨k, l, ts⟩ := u
  rw [Tree.size]
  have := size_mem ts t h
  omega

theorem Part.size {t u : Tree} (h : Part t u) : t.size ≤ u.size := by
  induction h with
  | refl => exact Nat.le_refl _
  | child ht _ ih => exact Nat.le_trans ih (Nat.le_of_lt (size_child ht))

/-- C136: Each complex expression that is repeated is a part of one that is reported. -/
theorem C136_covered (str : Tree → Str) (root : Tree) (hroot : isListed root.kind = false)
    (hstr : ∀ o ∈ collect [] .other root, ∀ o' ∈ collect [] .other root, str o.2 = str o'.2 → o.2 = o'.2) :
    ∀ o ∈ collect [] .other root, 2 ≤ ((collect [] .other root).filter fun y => str y.2 = str o.2).length →
      ∃ s es, (s, es) ∈ duplicateExprs str root ∧ ∃ o' ∈ es, Part o.2 o'.2 := by
  suffices hsuff : ∀ (n : Nat), ∀ o ∈ collect [] .other root, root.size - o.2.size ≤ n → 2 ≤ ((collect [] .other root).filter fun y => str y.2 = str o.2).length →
      ∃ s es, (s, es) ∈ duplicateExprs str root ∧ ∃ o' ∈ es, Part o.2 o'.2 from fun o ho h2 => hsuff _ o ho (Nat.le_refl _) h2
  intro n
  induction n with
  | zero =>
    intro o ho hs _
    obtain ⟨parent, h1, h2, -⟩ := (C136_recorded root o.1 o.2).1 ho
    obtain ⟨p, t⟩ := o
    have hp := reach_part _ _ _ _ _ h1
    cases hp with
    | refl => rw [hroot] at h2; cases h2
    | child ht hp =>
      have h3 := hp.size
      have h4 := size_child ht
      simp only at hs h3
      omega
  | succ n ih =>
    intro o ho hs h2
    have hrep := C136_reported str root hroot (str o.2) ((collect [] .other root).filter fun y => str y.2 = str o.2)
    by_cases hr : (str o.2, (collect [] .other root).filter fun y => str y.2 = str o.2) ∈ duplicateExprs str root
    · exact ⟨_, _, hr, o, List.mem_filter.2 ⟨ho, by simp⟩, .refl⟩
    · have := mt hrep.2 hr
      simp only [true_and, not_and, not_forall, not_not] at this
      obtain ⟨f, hf, x, hx, hxp, hx2⟩ := this h2
      have hfm := List.mem_filter.1 (List.mem_of_mem_head? hf)
      have hfe : f.2 = o.2 := hstr f hfm.1 o ho (by simpa using hfm.2)
      obtain ⟨par, r1, r2, -⟩ := (C136_recorded root f.1 f.2).1 hfm.1
      obtain ⟨par', q1, -, -⟩ := (C136_recorded root x.1 x.2).1 hx
      have hne : f.1 ≠ [] := by
        intro h0
        rw [h0, reach] at r1
        split at r1
        · cases r1
        · cases r1
          rw [hroot] at r2
          cases r2
      rw [hxp] at q1
      have hch := reach_parent _ _ _ _ _ _ _ hne r1 q1
      rw [hfe] at hch
      have hsz := size_child hch
      have hle := (reach_part _ _ _ _ _ q1).size
      obtain ⟨s, es, h3, o', h4, h5⟩ := ih x hx (by omega) hx2
      exact ⟨s, es, h3, o', h4, Part.trans (.child hch .refl) h5⟩

/-! ### Programs -/

mutual
/-- A text of trees. -/
def text : Tree → Str
  | .node _ l ts => "(".toList ++ l ++ textAll ts ++ ")".toList

def textAll : List Tree → Str
  | [] => []
  | t :: ts => " ".toList ++ text t ++ textAll ts
end

def name (x : String) : Tree := .node .name x.toList []
def plus (a b : Tree) : Tree := .node .binOp "+".toList [a, b]
def subscript (a b : Tree) : Tree := .node .subscript "[]".toList [a, b]
def assign (x : String) (e : Tree) : Tree := .node .assign x.toList [.node .other x.toList [], e]
def return_ (e : Tree) : Tree := .node .other "return".toList [e]
def module_ (ss : List Tree) : Tree := .node .other "Module".toList ss

/-- `a + b + c + d` -/
def inner : Tree := plus (plus (plus (name "a") (name "b")) (name "c")) (name "d")

/-- `x = f + (a + b + c + d); y = f + (a + b + c + d); z = a + b + c + d` -/
def nested : Tree := module_ [assign "x" (plus (name "f") inner), assign "y" (plus (name "f") inner), assign "z" inner]

/-- C136: Uses of an expression outside of a repeated one in which it is used first are not in any message. -/
theorem C136_outside_counterexample :
    ([2, 1], inner) ∈ collect [] .other nested ∧ 2 ≤ ((collect [] .other nested).filter fun y => text y.2 = text inner).length ∧
      (duplicateExprs text nested).map (fun m => m.2.map (·.1)) = [[[0, 1], [1, 1]]] := by
  refine ⟨(C136_recorded _ _ _).2 ⟨.assign, rfl, rfl, 10, by decide, by decide +kernel⟩, by decide +kernel, by decide +kernel⟩

/-- C136: Subscripts and attributes that are assigned are not complex, as if they were assigned to: `x = f[a + b + c]; y = f[a + b + c]`, though they are in `return`. -/
theorem C136_assigned_counterexample :
    duplicateExprs text (module_ [assign "x" (subscript (name "f") (plus (plus (name "a") (name "b")) (name "c"))),
        assign "y" (subscript (name "f") (plus (plus (name "a") (name "b")) (name "c")))]) = [] ∧
      (duplicateExprs text (module_ [return_ (subscript (name "f") (plus (plus (name "a") (name "b")) (name "c"))),
        return_ (subscript (name "f") (plus (plus (name "a") (name "b")) (name "c")))])).map (fun m => m.2.map (·.1)) = [[[0, 0], [1, 0]]] := by
  constructor
  · have : (duplicateExprs text (module_ [assign "x" (subscript (name "f") (plus (plus (name "a") (name "b")) (name "c"))),
        assign "y" (subscript (name "f") (plus (plus (name "a") (name "b")) (name "c")))])).length = 0 := by decide +kernel
    exact List.length_eq_zero_iff.1 this
  · decide +kernel

/-! ### Examples -/

/-- Calls of other functions are not complex, but what is in them may be. -/
example : (duplicateExprs text (module_ [return_ (.node (.call "f".toList) "f()".toList [name "f", inner]), return_ inner])).map (fun m => m.2.map (·.1)) =
    [[[0, 0, 1], [1, 0]]] := by decide +kernel

/-- The hypotheses of `C136_covered`. -/
example : ∀ o ∈ collect [] .other (module_ [return_ inner, return_ inner]), ∀ o' ∈ collect [] .other (module_ [return_ inner, return_ inner]),
    text o.2 = text o'.2 → o.2 = o'.2 := by
  have h : collect [] .other (module_ [return_ inner, return_ inner]) = [([0, 0], inner), ([1, 0], inner)] := rfl
  rw [h]
  simp

/-- Nothing in an assertion is looked at. -/
example : (duplicateExprs text (module_ [.node .assert "assert".toList [inner], return_ inner])).length = 0 := by decide +kernel

end Verif.DupExprs
