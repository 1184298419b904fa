import Verif.Model.IfContainer

/-!
C121: a list or a dictionary is suggested instead of ifs that compare variables with constants.
-/

namespace Verif.IfContainer

/-! ### What is meant -/

section
variable (env : Str → Option Key) (oe : Opnd → Opnd → Bool) (o : Nat → Bool)

/-- The truth value of a comparison; a variable whose object is equal to no constant has no key. -/
def eqHolds : Opnd → Opnd → Bool
  | .name x, .const c => decide (env x = some c.key)
  | .const c, .name x => decide (env x = some c.key)
  | l, r => oe l r

mutual
/-- The truth value of a condition; those of conditions and comparisons that are not simple are given. -/
def holds : Test → Bool
  | .eq l r => eqHolds env oe l r
  | .and_ ts => holdsAll ts
  | .or_ ts => holdsAny ts
  | .other n => o n

def holdsAll : List Test → Bool
  | [] => true
  | t :: ts => holds t && holdsAll ts

def holdsAny : List Test → Bool
  | [] => false
  | t :: ts => holds t || holdsAny ts
end

/-- What is executed. -/
inductive Branch where
  | body (i : Nat)
  | else_ (i : Nat)
deriving DecidableEq

/-- Which branches of `if`s and `elif`s are executed one after the other, where these do not change the conditions; `taken` says that one of the same
`if` was. -/
def run : Bool → Nat → List If → List Branch
  | _, _, [] => []
  | taken, n, i :: is =>
    if !i.fresh && taken then run true (n + 1) is
    else if holds env oe o i.test then .body n :: run true (n + 1) is
    else if i.hasElse then .else_ n :: run false (n + 1) is
    else run false (n + 1) is

end

/-- The value of the last of equal keys. -/
def find (tbl : List (List Key × Nat)) (key : List (Option Key)) : Option Nat :=
  (tbl.reverse.find? fun p => decide (p.1.map some = key)).map (·.2)

/-- What is suggested: the body with the values of the table if the variables are in it, and the `else` otherwise. -/
def replaced (env : Str → Option Key) (tbl : List (List Key × Nat)) (vars : List Str) (els : Option Nat) : List Branch :=
  match find tbl (vars.map env) with
  | some i => [.body i]
  | none => (els.map Branch.else_).toList

/-- The first of the `if`s with simple conditions that follow each other. -/
def Slice (ifs : List If) (l : List (If × List Conj)) : Prop :=
  ∃ pre post, ifs = pre ++ l.map (·.1) ++ post ∧ (∀ i ∈ pre, vals i.test = none) ∧ (∀ p ∈ l, vals p.1.test = some p.2) ∧
    (∀ i, post.head? = some i → vals i.test = none) ∧ 3 ≤ l.length ∧ (pre = [] ∨ post = [])

/-- The only variable is compared with the numbers from 0, each once. -/
def FromZero (ds : List (List Conj)) : Prop :=
  ∃ l : List Int, ds.flatten.map (fun c => c.map (·.2.int?)) = l.map (fun i => [some i]) ∧ l.Perm ((List.range l.length).map Int.ofNat)

/-! ### Conditions -/

theorem sort_perm {α : Type} (le : α → α → Bool) : ∀ l, (Candidates.sortBy le l).Perm l
  | [] => .refl _
  | x :: l => by
    have ins : ∀ l, (Candidates.insertBy le x l).Perm (x :: l) := by
      intro l
      induction l with
      | nil => exact .refl _
      | cons y l ih =>
        unfold Candidates.insertBy
        split
        · exact .refl _
        · exact (ih.cons y).trans (.swap x y l)
    exact (ins _).trans ((sort_perm le l).cons x)

/-- All variables of the conjunction are equal to their constants. -/
def Sat (env : Str → Option Key) (c : Conj) : Prop := ∀ p ∈ c, env p.1 = some p.2.key

theorem mem_product {α : Type} (l : List α) (ls : List (List α)) (p : List α) :
    p ∈ product (l :: ls) ↔ ∃ a q, p = a :: q ∧ a ∈ l ∧ q ∈ product ls := by
  rw [product]
  simp only [List.mem_flatMap, List.mem_map]
  constructor
  · rintro ⟨a, ha, q, hq, rfl⟩
    exact ⟨a, q, rfl, ha, hq⟩
  · rintro ⟨a, q, rfl, ha, hq⟩
    exact ⟨a, ha, q, hq, rfl⟩

theorem sat_flatten (env : Str → Option Key) (p : List Conj) : Sat env p.flatten ↔ ∀ c ∈ p, Sat env c := by
  unfold Sat
  constructor
  · intro h c hc q hq
    exact h q (List.mem_flatten.2 ⟨c, hc, hq⟩)
  · intro h q hq
    obtain ⟨c, hc, hq⟩ := List.mem_flatten.1 hq
    exact h c hc q hq

theorem sat_byName (env : Str → Option Key) (c : Conj) : Sat env (byName c) ↔ Sat env c := by
  unfold Sat byName
  have h := sort_perm (fun a b : Str × Const => strLe a.1 b.1) c
  constructor
  · intro h1 q hq
    exact h1 q (h.mem_iff.2 hq)
  · intro h1 q hq
    exact h1 q (h.mem_iff.1 hq)

theorem exists_product (env : Str → Option Key) : ∀ ds : List (List Conj), (∃ p ∈ product ds, ∀ c ∈ p, Sat env c) ↔ ∀ d ∈ ds, ∃ c ∈ d, Sat env c
  | [] => by simp [product]
  | d :: ds => by
    have ih := exists_product env ds
    constructor
    · rintro ⟨p, hp, h⟩
      obtain ⟨a, q, rfl, ha, hq⟩ := (mem_product _ _ _).1 hp
      intro e he
      rcases List.mem_cons.1 he with rfl | he
      · exact ⟨a, ha, h _ (by simp)⟩
      · exact ih.1 ⟨q, hq, fun c hc => h c (by simp [hc])⟩ e he
    · intro h
      obtain ⟨c, hc, hs⟩ := h d (by simp)
      obtain ⟨p, hp, h2⟩ := ih.2 fun e he => h e (by simp [he])
      refine ⟨c :: p, (mem_product _ _ _).2 ⟨c, p, rfl, hc, hp⟩, ?_⟩
      intro e he
      rcases List.mem_cons.1 he with rfl | he
      · exact hs
      · exact h2 e he

mutual
theorem vals_holds (env : Str → Option Key) (oe : Opnd → Opnd → Bool) (o : Nat → Bool) : ∀ (t : Test) (ds : List Conj), vals t = some ds →
    (holds env oe o t = true ↔ ∃ c ∈ ds, Sat env c)
  | .eq l r, ds, h => by
    rw [vals] at h
    rw [holds]
    unfold fromEq at h
    split at h
    · cases h; simp [eqHolds, Sat]
    · cases h; simp [eqHolds, Sat]
    · cases h
  | .or_ ts, ds, h => by
    rw [vals] at h
    rw [holds]
    cases hv : valsAll ts with
    | none => rw [hv] at h; cases h
    | some dss =>
      rw [hv] at h
      cases h
      rw [(valsAll_holds env oe o ts dss hv).2]
      constructor
      · rintro ⟨d, hd, c, hc, hs⟩
        exact ⟨c, List.mem_flatten.2 ⟨d, hd, hc⟩, hs⟩
      · rintro ⟨c, hc, hs⟩
        obtain ⟨d, hd, hc⟩ := List.mem_flatten.1 hc
        exact ⟨d, hd, c, hc, hs⟩
  | .and_ ts, ds, h => by
    rw [vals] at h
    rw [holds]
    cases hv : valsAll ts with
    | none => rw [hv] at h; cases h
    | some dss =>
      rw [hv] at h
      cases h
      rw [(valsAll_holds env oe o ts dss hv).1, ← exists_product]
      simp only [List.mem_map]
      constructor
      · rintro ⟨p, hp, hs⟩
        exact ⟨_, ⟨p, hp, rfl⟩, (sat_byName _ _).2 ((sat_flatten _ _).2 hs)⟩
      · rintro ⟨_, ⟨p, hp, rfl⟩, hs⟩
        exact ⟨p, hp, (sat_flatten _ _).1 ((sat_byName _ _).1 hs)⟩
  | .other _, ds, h => by
    rw [vals] at h
    cases h

theorem valsAll_holds (env : Str → Option Key) (oe : Opnd → Opnd → Bool) (o : Nat → Bool) : ∀ (ts : List Test) (dss : List (List Conj)), valsAll ts = some dss →
    (holdsAll env oe o ts = true ↔ ∀ d ∈ dss, ∃ c ∈ d, Sat env c) ∧ (holdsAny env oe o ts = true ↔ ∃ d ∈ dss, ∃ c ∈ d, Sat env c)
  | [], dss, h => by
    rw [valsAll] at h
    cases h
    simp [holdsAll, holdsAny]
  | t :: ts, dss, h => by
    rw [valsAll] at h
    cases hv : vals t with
    | none => rw [hv] at h; cases h
    | some d =>
      rw [hv] at h
      simp only at h
      cases hvs : valsAll ts with
      | none => rw [hvs] at h; cases h
      | some ds =>
        rw [hvs] at h
        cases h
        have h1 := vals_holds env oe o t d hv
        have h2 := valsAll_holds env oe o ts ds hvs
        rw [holdsAll, holdsAny, Bool.and_eq_true, Bool.or_eq_true, h1, h2.1, h2.2]
        simp
end

/-- **C121**: a condition that is taken for a comparison of variables with constants is true just if some of the listed comparisons are all true. -/
theorem C121_condition {t : Test} {ds : List Conj} (h : vals t = some ds) (env : Str → Option Key) (oe : Opnd → Opnd → Bool) (o : Nat → Bool) :
    holds env oe o t = true ↔ ∃ c ∈ ds, ∀ p ∈ c, env p.1 = some p.2.key := vals_holds env oe o t ds h

/-! ### Which are looked at -/

theorem run_false {α : Type} : ∀ (l : List (Option α)) (s e : Nat), simpleRun s e false l = (s, e + (l.takeWhile Option.isSome).length)
  | [], s, e => rfl
  | none :: l, s, e => rfl
  | some a :: l, s, e => by
    rw [simpleRun, run_false l]
    simp
    omega

theorem run_true {α : Type} (a : α) (post : List (Option α)) : ∀ (k s e : Nat),
    simpleRun s e true (List.replicate k none ++ some a :: post) = (s + k, s + k + (post.takeWhile Option.isSome).length)
  | 0, s, e => by
    simp only [List.replicate_zero, List.nil_append]
    rw [simpleRun, run_false]
    simp
  | k + 1, s, e => by
    rw [List.replicate_succ, List.cons_append, simpleRun, run_true a post k]
    simp only [Prod.mk.injEq]
    omega

theorem run_none {α : Type} : ∀ (k s e : Nat), simpleRun (α := α) s e true (List.replicate k none) = (s + k, e)
  | 0, s, e => rfl
  | k + 1, s, e => by
    rw [List.replicate_succ, simpleRun, run_none k]
    simp only [Prod.mk.injEq, and_true]
    omega

/-- The `if`s whose conditions are not simple, the first that are, and the rest. -/
theorem split_ifs (ifs : List If) : ∃ (pre : List If) (l : List (If × List Conj)) (post : List If), ifs = pre ++ l.map (·.1) ++ post ∧
    (∀ i ∈ pre, vals i.test = none) ∧ (∀ p ∈ l, vals p.1.test = some p.2) ∧ (∀ i, post.head? = some i → vals i.test = none) ∧ (l = [] → post = []) := by
  induction ifs with
  | nil => exact ⟨[], [], [], rfl, by simp, by simp, by simp, by simp⟩
  | cons i ifs ih =>
    obtain ⟨pre, l, post, rfl, h1, h2, h3, h4⟩ := ih
    cases hv : vals i.test with
    | none =>
      by_cases hp : pre = [] ∧ l ≠ []
      · -- the first is not simple
        refine ⟨[i], l, post, by simp [hp.1], by simp [hv], h2, h3, fun h => absurd h hp.2⟩
      · refine ⟨i :: pre, l, post, by simp, ?_, h2, h3, h4⟩
        intro j hj
        rcases List.mem_cons.1 hj with rfl | hj
        · exact hv
        · exact h1 j hj
    | some d =>
      cases pre with
      | nil =>
        refine ⟨[], (i, d) :: l, post, by simp, by simp, ?_, h3, by simp⟩
        intro p hp
        rcases List.mem_cons.1 hp with rfl | hp
        · exact hv
        · exact h2 p hp
      | cons j pre =>
        refine ⟨[], [(i, d)], j :: pre ++ l.map (·.1) ++ post, by simp, by simp, ?_, ?_, by simp⟩
        · intro p hp
          simp only [List.mem_singleton] at hp
          subst hp
          exact hv
        · intro k hk
          simp only [List.cons_append, List.head?_cons, Option.some.injEq] at hk
          exact hk ▸ h1 j (by simp)

theorem slice_of {ifs pre post : List If} {l : List (If × List Conj)} (h0 : ifs = pre ++ l.map (·.1) ++ post) (h1 : ∀ i ∈ pre, vals i.test = none)
    (h2 : ∀ p ∈ l, vals p.1.test = some p.2) (h3 : ∀ i, post.head? = some i → vals i.test = none) (h4 : l = [] → post = []) :
    slice ifs = if 3 ≤ l.length ∧ (pre = [] ∨ post = []) then some l else none := by
  have hpre : pre.map (fun i => vals i.test) = List.replicate pre.length none := by
    rw [List.eq_replicate_iff]
    simpa using h1
  cases l with
  | nil =>
    have hp := h4 rfl
    subst hp
    simp only [List.map_nil, List.append_nil] at h0
    subst h0
    unfold slice
    rw [hpre, run_none]
    rw [if_pos (.inl (by simp)), if_neg (by simp)]
  | cons p l =>
    have hl : (l.map (·.1)).map (fun i => vals i.test) = l.map (fun p => some p.2) := by
      rw [List.map_map]
      apply List.map_congr_left
      intro q hq
      exact h2 q (by simp [hq])
    have hrun : simpleRun 0 0 true (ifs.map fun i => vals i.test) = (pre.length, pre.length + l.length) := by
      rw [h0, List.map_append, List.map_append, hpre, List.map_cons, List.map_cons, hl, h2 p (by simp), List.append_assoc, List.cons_append, run_true]
      have : ((l.map (fun p => some p.2) ++ post.map (fun i => vals i.test)).takeWhile Option.isSome).length = l.length := by
        rw [List.takeWhile_append_of_pos (by intro a ha; obtain ⟨q, -, rfl⟩ := List.mem_map.1 ha; rfl)]
        cases post with
        | nil => simp
        | cons i post => simp [h3 i rfl]
      rw [this]
      simp
    have hlen : ifs.length = pre.length + (l.length + 1) + post.length := by
      rw [h0]
      simp
      omega
    unfold slice
    rw [hrun]
    simp only
    have hc : (pre.length + l.length + 1 < pre.length + 3 ∨ (pre.length ≠ 0 ∧ pre.length + l.length + 1 ≠ ifs.length)) ↔
        ¬ (3 ≤ (p :: l).length ∧ (pre = [] ∨ post = [])) := by
      rw [hlen]
      have e1 : pre = [] ↔ pre.length = 0 := by simp
      have e2 : post = [] ↔ post.length = 0 := by simp
      rw [e1, e2, List.length_cons]
      omega
    by_cases h : 3 ≤ (p :: l).length ∧ (pre = [] ∨ post = [])
    · rw [if_neg (by rw [hc]; exact fun hn => hn h), if_pos h]
      congr 1
      have e : (ifs.take (pre.length + l.length + 1)).drop pre.length = (p :: l).map (·.1) := by
        rw [h0, List.take_append_of_le_length (by simp; omega), List.take_of_length_le (by simp; omega), List.drop_left]
      rw [e, List.filterMap_map]
      have : ∀ m : List (If × List Conj), (∀ p ∈ m, vals p.1.test = some p.2) →
          m.filterMap ((fun i => (vals i.test).map fun v => (i, v)) ∘ fun x => x.1) = m := by
        intro m hm
        induction m with
        | nil => rfl
        | cons q m ih =>
          rw [List.filterMap_cons]
          simp only [Function.comp, hm q (by simp), Option.map_some]
          congr 1
          exact ih fun p hp => hm p (by simp [hp])
      exact this _ h2
    · rw [if_pos (hc.2 h), if_neg h]

theorem slice_iff (ifs : List If) (l : List (If × List Conj)) : slice ifs = some l ↔ Slice ifs l := by
  constructor
  · intro h
    obtain ⟨pre, m, post, h0, h1, h2, h3, h4⟩ := split_ifs ifs
    rw [slice_of h0 h1 h2 h3 h4] at h
    split at h
    · rename_i hc
      cases h
      exact ⟨pre, post, h0, h1, h2, h3, hc⟩
    · cases h
  · rintro ⟨pre, post, h0, h1, h2, h3, h5, h6⟩
    rw [slice_of h0 h1 h2 h3 (by intro h; rw [h] at h5; simp at h5), if_pos ⟨h5, h6⟩]

/-! ### What is suggested -/

theorem sameVars_iff (ds : List (List Conj)) : sameVars ds = true ↔ ∃ vars, ∀ d ∈ ds, ∀ c ∈ d, c.map (·.1) = vars := by
  have h0 : (∃ vars, ∀ d ∈ ds, ∀ c ∈ d, c.map (·.1) = vars) ↔ ∃ vars, ∀ c ∈ ds.flatten, c.map (·.1) = vars := by
    constructor
    · rintro ⟨v, h⟩
      refine ⟨v, fun c hc => ?_⟩
      obtain ⟨d, hd, hc⟩ := List.mem_flatten.1 hc
      exact h d hd c hc
    · rintro ⟨v, h⟩
      exact ⟨v, fun d hd c hc => h c (List.mem_flatten.2 ⟨d, hd, hc⟩)⟩
  rw [h0]
  unfold sameVars
  split
  · rename_i c cs he
    rw [he]
    simp only [List.all_eq_true, decide_eq_true_eq]
    constructor
    · intro h
      refine ⟨c.map (·.1), fun c' hc => ?_⟩
      rcases List.mem_cons.1 hc with rfl | hc
      · rfl
      · exact h c' hc
    · rintro ⟨v, h⟩ c' hc
      rw [h c (by simp), h c' (by simp [hc])]
  · rename_i he
    rw [he]
    simp

theorem single_iff (c : Conj) (i : Int) : single? c = some i ↔ c.map (·.2.int?) = [some i] := by
  rcases c with _ | ⟨⟨x, k⟩, _ | ⟨q, c⟩⟩ <;> simp [single?]

theorem ints_iff (cs : List Conj) : ∀ l : List Int, ints cs = some l ↔ cs.map (fun c => c.map (·.2.int?)) = l.map (fun i => [some i]) := by
  induction cs with
  | nil =>
    intro l
    cases l <;> simp [ints]
  | cons c cs ih =>
    intro l
    cases l with
    | nil =>
      rw [ints]
      cases single? c <;> cases ints cs <;> simp
    | cons i l =>
      rw [List.map_cons, List.map_cons, List.cons.injEq, ← single_iff, ← ih l, ints]
      cases single? c <;> cases ints cs <;> simp

theorem sort_pairwise (l : List Int) : (Candidates.sortBy (fun a b => decide (a ≤ b)) l).Pairwise (· ≤ ·) := by
  have ins : ∀ (x : Int) (l : List Int), l.Pairwise (· ≤ ·) → (Candidates.insertBy (fun a b => decide (a ≤ b)) x l).Pairwise (· ≤ ·) := by
    intro x l
    induction l with
    | nil => intro _; simp [Candidates.insertBy]
    | cons y l ih =>
      intro h
      rw [List.pairwise_cons] at h
      unfold Candidates.insertBy
      split
      · rename_i hxy
        simp only [decide_eq_true_eq] at hxy
        refine List.pairwise_cons.2 ⟨fun z hz => ?_, List.pairwise_cons.2 h⟩
        rcases List.mem_cons.1 hz with rfl | hz
        · exact hxy
        · exact Int.le_trans hxy (h.1 z hz)
      · rename_i hxy
        simp only [decide_eq_true_eq, Int.not_le] at hxy
        refine List.pairwise_cons.2 ⟨fun z hz => ?_, ih h.2⟩
        have hp : (Candidates.insertBy (fun a b => decide (a ≤ b)) x l).Perm (x :: l) := by
          clear ih h hz
          induction l with
          | nil => exact .refl _
          | cons w l ih =>
            unfold Candidates.insertBy
            split
            · exact .refl _
            · exact (ih.cons w).trans (.swap x w l)
        rcases List.mem_cons.1 (hp.mem_iff.1 hz) with rfl | hz
        · omega
        · exact h.1 z hz
  induction l with
  | nil => simp [Candidates.sortBy]
  | cons x l ih => exact ins x _ ih

theorem symbol_iff (ds : List (List Conj)) : symbol ds = .toList ↔ FromZero ds := by
  unfold symbol FromZero
  constructor
  · intro h
    split at h
    · cases h
    · rename_i l hl
      split at h
      · rename_i hs
        have hm := (ints_iff ds.flatten l).1 hl
        have hlen : ds.flatten.length = l.length := by
          have := congrArg List.length hm
          rwa [List.length_map, List.length_map] at this
        rw [hlen] at hs
        exact ⟨l, hm, hs ▸ (sort_perm _ l).symm⟩
      · cases h
  · rintro ⟨l, hm, hp⟩
    have hl : ints ds.flatten = some l := (ints_iff ds.flatten l).2 hm
    have hlen : ds.flatten.length = l.length := by
      have := congrArg List.length hm
      rwa [List.length_map, List.length_map] at this
    rw [hl]
    simp only
    rw [hlen, if_pos]
    refine List.Perm.eq_of_pairwise (le := (· ≤ ·)) (fun a b _ _ h1 h2 => Int.le_antisymm h1 h2) (sort_pairwise l) ?_ ((sort_perm _ l).trans hp)
    rw [List.pairwise_map]
    exact List.pairwise_lt_range.imp fun h => by simp; omega

/-- **C121**: what is reported, and for which `if`s: the first with simple conditions that follow each other, at least three and up to the end or from the
beginning. These are all about the same variables. -/
theorem C121_reported (ifs : List If) (g : List If → Given) (s : Symbol) (js : List If) :
    container ifs g = some (s, js) ↔ ∃ l, Slice ifs l ∧ js = l.map (·.1) ∧ (∃ vars, ∀ p ∈ l, ∀ c ∈ p.2, c.map (·.1) = vars) ∧
      (∃ avars, (g js).avars = some avars ∧ avars.length ≤ 2 ∧
        ((∃ p ps, l = p :: ps ∧ 2 ≤ p.2.length) → ∀ a ∈ avars, a.name = true ∨ (a.const = true ∧ a.int = true))) ∧
      (g js).otherDuplication = false ∧ (g js).called = false ∧ (g js).varsChange = false ∧
      (g js).stmtsAfter ≤ (g js).stmtsBefore + 1 ∧ 5 * (g js).tokensAfter < 4 * (g js).tokensBefore ∧
      (s = .toList ↔ FromZero (l.map (·.2))) := by
  have hfew : ∀ (l : List (If × List Conj)) (avars : List Avar), fewCases (l.map (·.2)) avars = true ↔
      ((∃ p ps, l = p :: ps ∧ 2 ≤ p.2.length) → ∀ a ∈ avars, a.name = true ∨ (a.const = true ∧ a.int = true)) := by
    intro l avars
    cases l with
    | nil => simp [fewCases]
    | cons p l =>
      obtain ⟨f, d⟩ := p
      have e : (∃ p ps, (f, d) :: l = p :: ps ∧ 2 ≤ p.2.length) ↔ 2 ≤ d.length := by
        constructor
        · rintro ⟨p, ps, h, h2⟩
          cases h
          exact h2
        · intro h
          exact ⟨_, _, rfl, h⟩
      rw [e]
      match d with
      | [] => simp [fewCases]
      | [_] => simp [fewCases]
      | _ :: _ :: _ => simp [fewCases]
  have hvars : ∀ l : List (If × List Conj), sameVars (l.map (·.2)) = true ↔ ∃ vars, ∀ p ∈ l, ∀ c ∈ p.2, c.map (·.1) = vars := by
    intro l
    rw [sameVars_iff]
    constructor
    · rintro ⟨v, h⟩
      exact ⟨v, fun p hp => h p.2 (List.mem_map.2 ⟨p, hp, rfl⟩)⟩
    · rintro ⟨v, h⟩
      refine ⟨v, fun d hd => ?_⟩
      obtain ⟨p, hp, rfl⟩ := List.mem_map.1 hd
      exact h p hp
  unfold container
  constructor
  · intro h
    split at h
    · cases h
    · rename_i l hl
      simp only at h
      split at h
      · rename_i avars hv ha
        split at h
        · cases h
        · rename_i hc
          split at h
          · rename_i hs
            cases h
            simp only [Bool.or_eq_true, decide_eq_true_eq, Bool.not_eq_true', not_or, Bool.not_eq_true, Bool.not_eq_false, Nat.not_lt] at hc
            obtain ⟨⟨⟨⟨h1, h2⟩, h3⟩, h4⟩, h5⟩ := hc
            unfold LoopMerge.saves at hs
            simp only [Bool.and_eq_true, decide_eq_true_eq] at hs
            exact ⟨l, (slice_iff _ _).1 hl, rfl, (hvars l).1 hv, ⟨avars, ha, h1, (hfew l avars).1 h5⟩, h2, h3, h4, hs.1, hs.2, symbol_iff _⟩
          · cases h
      · cases h
  · rintro ⟨l, hl, rfl, hv, ⟨avars, ha, h1, h5⟩, h2, h3, h4, h6, h7, h8⟩
    rw [(slice_iff _ _).2 hl]
    simp only
    rw [(hvars l).2 hv, ha]
    simp only
    rw [if_neg, if_pos]
    · have : symbol (l.map (·.2)) = s := by
        have h9 := (symbol_iff (l.map (·.2))).trans h8.symm
        cases s <;> cases hs : symbol (l.map (·.2)) <;> simp_all
      rw [this]
    · simp [LoopMerge.saves, h6, h7]
    · simp only [h2, h3, h4, (hfew l avars).2 h5, Bool.not_true, Bool.or_false, decide_eq_true_eq]
      omega

/-! ### The same branches are executed -/

/-- The `if`s are one with its `elif`s, of which only the last may have an `else`. -/
def OneIf (ifs : List If) : Prop := (∀ i ∈ ifs.drop 1, i.fresh = false) ∧ ∀ i ∈ ifs.dropLast, i.hasElse = false

/-- None of the `if`s has an `else`. -/
def NoElse (ifs : List If) : Prop := ∀ i ∈ ifs, i.hasElse = false

/-- The `else` of the last one. -/
def lastElse (ifs : List If) : Option Nat :=
  match ifs.getLast? with
  | some i => if i.hasElse then some (ifs.length - 1) else none
  | none => none

theorem sat_key (env : Str → Option Key) : ∀ (c : Conj) (vars : List Str), c.map (·.1) = vars →
    (Sat env c ↔ (c.map (·.2.key)).map some = vars.map env)
  | [], vars, h => by
    subst h
    simp [Sat]
  | (x, k) :: c, vars, h => by
    subst h
    have ih := sat_key env c _ rfl
    unfold Sat at ih ⊢
    simp only [List.map_cons, List.cons.injEq, List.forall_mem_cons, ih]
    constructor
    · rintro ⟨h1, h2⟩
      exact ⟨h1.symm, h2⟩
    · rintro ⟨h1, h2⟩
      exact ⟨h1.symm, h2⟩

theorem mem_table (ds : List (List Conj)) (k : List Key) (i : Nat) : (k, i) ∈ table ds ↔ ∃ d, ds[i]? = some d ∧ ∃ c ∈ d, k = c.map (·.2.key) := by
  unfold table
  simp only [List.mem_flatMap, List.mem_map]
  constructor
  · rintro ⟨⟨d, j⟩, h, c, hc, he⟩
    cases he
    exact ⟨d, List.mem_zipIdx_iff_getElem?.1 h, c, hc, rfl⟩
  · rintro ⟨d, h, c, hc, rfl⟩
    exact ⟨(d, i), List.mem_zipIdx_iff_getElem?.2 h, c, hc, rfl⟩

/-- No key has two values. -/
def OneValue (tbl : List (List Key × Nat)) : Prop := ∀ k i j, (k, i) ∈ tbl → (k, j) ∈ tbl → i = j

theorem map_some_inj {α : Type} : ∀ a b : List α, a.map some = b.map some → a = b
  | [], [], _ => rfl
  | x :: a, y :: b, h => by
    simp only [List.map_cons, List.cons.injEq, Option.some.injEq] at h
    rw [h.1, map_some_inj a b h.2]

theorem find_iff {tbl : List (List Key × Nat)} (h : OneValue tbl) (key : List (Option Key)) (i : Nat) :
    find tbl key = some i ↔ ∃ k, k.map some = key ∧ (k, i) ∈ tbl := by
  unfold find
  constructor
  · intro hf
    cases hr : tbl.reverse.find? fun p => decide (p.1.map some = key) with
    | none => rw [hr] at hf; cases hf
    | some p =>
      rw [hr] at hf
      cases hf
      exact ⟨p.1, by simpa using List.find?_some hr, by simpa using List.mem_of_find?_eq_some hr⟩
  · rintro ⟨k, hk, hm⟩
    cases hr : tbl.reverse.find? fun p => decide (p.1.map some = key) with
    | none =>
      have := List.find?_eq_none.1 hr (k, i) (by simpa using hm)
      simp [hk] at this
    | some p =>
      have h1 : p.1.map some = key := by simpa using List.find?_some hr
      have h2 : p ∈ tbl := by simpa using List.mem_of_find?_eq_some hr
      obtain ⟨a, b⟩ := p
      have : a = k := map_some_inj _ _ (h1.trans hk.symm)
      subst this
      simp [h a b i h2 hm]

section
variable (env : Str → Option Key) (oe : Opnd → Opnd → Bool) (o : Nat → Bool)

theorem run_quiet : ∀ (is : List If) (t : Bool) (n : Nat), (∀ i ∈ is, holds env oe o i.test = false) → NoElse is → run env oe o t n is = []
  | [], _, _, _, _ => rfl
  | i :: is, t, n, h, he => by
    have h1 := h i (by simp)
    have h2 := he i (by simp)
    have ih := fun t => run_quiet is t (n + 1) (fun i hi => h i (by simp [hi])) (fun i hi => he i (by simp [hi]))
    rw [run]
    simp [h1, h2, ih]

theorem run_taken : ∀ (is : List If) (n : Nat), (∀ i ∈ is, i.fresh = false) → run env oe o true n is = []
  | [], _, _ => rfl
  | i :: is, n, h => by
    rw [run]
    simp [h i (by simp), run_taken is (n + 1) fun i hi => h i (by simp [hi])]

/-- One condition is true. -/
theorem run_one : ∀ (is : List If) (n j : Nat) (i : If), is[j]? = some i → holds env oe o i.test = true →
    (∀ k i', is[k]? = some i' → holds env oe o i'.test = true → k = j) → OneIf is ∨ NoElse is → run env oe o false n is = [.body (n + j)]
  | [], _, _, _, h, _, _, _ => by simp at h
  | f :: is, n, 0, i, h, ht, hu, hc => by
    simp only [List.getElem?_cons_zero, Option.some.injEq] at h
    subst h
    rw [run]
    simp only [Bool.and_false, Bool.false_eq_true, if_false, ht, if_true, Nat.add_zero]
    congr 1
    rcases hc with hc | hc
    · exact run_taken env oe o is _ (by simpa using hc.1)
    · refine run_quiet env oe o is _ _ (fun i hi => ?_) (fun i hi => hc i (by simp [hi]))
      obtain ⟨k, hk⟩ := List.getElem?_of_mem hi
      cases hh : holds env oe o i.test with
      | false => rfl
      | true => have := hu (k + 1) i (by simpa using hk) hh; omega
  | f :: is, n, j + 1, i, h, ht, hu, hc => by
    simp only [List.getElem?_cons_succ] at h
    have hf : holds env oe o f.test = false := by
      cases hh : holds env oe o f.test with
      | false => rfl
      | true => have := hu 0 f (by simp) hh; omega
    have hne : is ≠ [] := by rintro rfl; simp at h
    have he : f.hasElse = false := by
      rcases hc with hc | hc
      · refine hc.2 f ?_
        cases is with
        | nil => exact absurd rfl hne
        | cons a b => simp
      · exact hc f (by simp)
    rw [run]
    simp only [Bool.and_false, Bool.false_eq_true, if_false, hf, he]
    have := run_one is (n + 1) j i h ht (fun k i' hk hh => by
      have := hu (k + 1) i' (by simpa using hk) hh
      omega) (by
      rcases hc with hc | hc
      · refine .inl ⟨fun i hi => hc.1 i (by simp [List.mem_of_mem_drop hi]), fun i hi => hc.2 i ?_⟩
        cases is with
        | nil => exact absurd rfl hne
        | cons a b => simp [hi]
      · exact .inr fun i hi => hc i (by simp [hi]))
    rw [this]
    congr 2
    omega

/-- No condition is true. -/
theorem run_nothing : ∀ (is : List If) (n : Nat), (∀ i ∈ is, holds env oe o i.test = false) → (∀ i ∈ is.dropLast, i.hasElse = false) →
    run env oe o false n is = ((lastElse is).map fun k => Branch.else_ (n + k)).toList
  | [], _, _, _ => rfl
  | [f], n, h, _ => by
    rw [run]
    simp only [Bool.and_false, Bool.false_eq_true, if_false, h f (by simp), run, lastElse, List.getLast?_singleton]
    cases f.hasElse <;> rfl
  | f :: g :: is, n, h, he => by
    rw [run]
    simp only [Bool.and_false, Bool.false_eq_true, if_false, h f (by simp), he f (by simp)]
    rw [run_nothing (g :: is) (n + 1) (fun i hi => h i (by simp [hi])) (fun i hi => he i (by simp [hi]))]
    unfold lastElse
    simp only [List.getLast?_cons_cons]
    split
    · split
      · simp; omega
      · rfl
    · rfl

/-- **C121**: looking up what to do in the table executes the same branch as the `if`s do, if no key of it has two values and if the `if`s are one with
its `elif`s or have no `else`. -/
theorem C121_same_partial {ifs : List If} {l : List (If × List Conj)} (hl : Slice ifs l) {vars : List Str} (hv : ∀ p ∈ l, ∀ c ∈ p.2, c.map (·.1) = vars)
    (hone : OneValue (table (l.map (·.2)))) (hc : OneIf (l.map (·.1)) ∨ NoElse (l.map (·.1))) :
    replaced env (table (l.map (·.2))) vars (lastElse (l.map (·.1))) = run env oe o false 0 (l.map (·.1)) := by
  obtain ⟨-, -, -, -, h2, -⟩ := hl
  have key : ∀ j p, l[j]? = some p → (holds env oe o p.1.test = true ↔ ∃ k, k.map some = vars.map env ∧ (k, j) ∈ table (l.map (·.2))) := by
    intro j p hp
    have hm := List.mem_of_getElem? hp
    rw [C121_condition (h2 p hm) env oe o]
    constructor
    · rintro ⟨c, hc, hs⟩
      exact ⟨c.map (·.2.key), (sat_key env c vars (hv p hm c hc)).1 hs, (mem_table _ _ _).2 ⟨p.2, by simp [hp], c, hc, rfl⟩⟩
    · rintro ⟨k, hk, ht⟩
      obtain ⟨d, hd, c, hc, rfl⟩ := (mem_table _ _ _).1 ht
      simp only [List.getElem?_map, hp, Option.map_some, Option.some.injEq] at hd
      subst hd
      exact ⟨c, hc, (sat_key env c vars (hv p hm c hc)).2 hk⟩
  unfold replaced
  cases hf : find (table (l.map (·.2))) (vars.map env) with
  | some j =>
    obtain ⟨k, hk, ht⟩ := (find_iff hone _ _).1 hf
    obtain ⟨d, hd, c, hc', -⟩ := (mem_table _ _ _).1 ht
    simp only [List.getElem?_map, Option.map_eq_some_iff] at hd
    obtain ⟨p, hp, -⟩ := hd
    have := run_one env oe o (l.map (·.1)) 0 j p.1 (by simp [hp]) ((key j p hp).2 ⟨k, hk, ht⟩) (by
      intro k' i' hk' hh
      simp only [List.getElem?_map, Option.map_eq_some_iff] at hk'
      obtain ⟨q, hq, rfl⟩ := hk'
      obtain ⟨k2, e2, t2⟩ := (key k' q hq).1 hh
      have := map_some_inj _ _ (e2.trans hk.symm)
      subst this
      exact hone _ _ _ t2 ht) hc
    rw [this]
    simp
  | none =>
    have hno : ∀ i ∈ l.map (·.1), holds env oe o i.test = false := by
      intro i hi
      obtain ⟨p, hp, rfl⟩ := List.mem_map.1 hi
      obtain ⟨j, hj⟩ := List.getElem?_of_mem hp
      cases hh : holds env oe o p.1.test with
      | false => rfl
      | true =>
        rw [(find_iff hone _ _).2 ((key j p hj).1 hh)] at hf
        cases hf
    rw [run_nothing env oe o _ 0 hno (by
      rcases hc with hc | hc
      · exact hc.2
      · exact fun i hi => hc i (List.dropLast_subset _ hi))]
    simp

end

/-- **C121**: where a list is suggested, no key has two values. -/
theorem C121_list {ds : List (List Conj)} (h : symbol ds = .toList) : OneValue (table ds) := by
  obtain ⟨l, hm, hp⟩ := (symbol_iff ds).1 h
  have hnd : l.Nodup := hp.nodup_iff.2 (by
    refine List.Pairwise.map _ (fun a b (h : a ≠ b) => ?_) List.nodup_range
    intro he
    exact h (Int.ofNat.inj he))
  intro k i j hi hj
  -- the keys in order are the numbers, each once
  have hk : ∀ ds : List (List Conj), ∀ l : List Int, ∀ n, ds.flatten.map (fun c => c.map (·.2.int?)) = l.map (fun i => [some i]) →
      ((ds.zipIdx n).flatMap fun (d, i) => d.map fun c => (c.map (·.2.key), i)).map (·.1) = l.map fun i => [Key.num i] := by
    have one : ∀ cs : List Conj, ∀ l : List Int, cs.map (fun c => c.map (·.2.int?)) = l.map (fun i => [some i]) →
        cs.map (fun c => c.map (·.2.key)) = l.map fun i => [Key.num i] := by
      intro cs
      induction cs with
      | nil =>
        intro l h
        cases l with
        | nil => rfl
        | cons _ _ => simp at h
      | cons c cs ih =>
        intro l h
        cases l with
        | nil => simp at h
        | cons i l =>
          simp only [List.map_cons, List.cons.injEq] at h ⊢
          refine ⟨?_, ih l h.2⟩
          have h1 := h.1
          rcases c with _ | ⟨⟨x, k⟩, _ | ⟨q, c⟩⟩
          · simp at h1
          · simp only [List.map_cons, List.map_nil, List.cons.injEq, and_true] at h1 ⊢
            cases k with
            | int a => simp [Const.int?] at h1; simp [Const.key, h1]
            | bool a => simp [Const.int?] at h1; simp [Const.key, h1]
            | str a => simp [Const.int?] at h1
            | other a => simp [Const.int?] at h1
          · simp at h1
    intro ds l n h
    have e : ∀ (ds : List (List Conj)) n, ((ds.zipIdx n).flatMap fun (d, i) => d.map fun c => (c.map (·.2.key), i)).map (·.1) =
        ds.flatten.map (fun c => c.map (·.2.key)) := by
      intro ds
      induction ds with
      | nil => intro n; rfl
      | cons d ds ih =>
        intro n
        rw [List.zipIdx_cons, List.flatMap_cons, List.map_append, ih, List.flatten_cons, List.map_append, List.map_map]
        rfl
    rw [e]
    exact one _ _ h
  have hnd2 : ((table ds).map (·.1)).Nodup := by
    unfold table
    rw [hk ds l 0 hm]
    refine List.Pairwise.map _ (fun a b (h : a ≠ b) => ?_) hnd
    simpa using h
  have uniq : ∀ (t : List (List Key × Nat)), (t.map (·.1)).Nodup → (k, i) ∈ t → (k, j) ∈ t → i = j := by
    intro t
    induction t with
    | nil => intro _ h; simp at h
    | cons p t ih =>
      intro hn h1 h2
      rw [List.map_cons, List.nodup_cons] at hn
      rcases List.mem_cons.1 h1 with h1 | h1 <;> rcases List.mem_cons.1 h2 with h2 | h2
      · exact congrArg Prod.snd (h1.trans h2.symm)
      · exact absurd (List.mem_map.2 ⟨(k, j), h2, by rw [← h1]⟩) hn.1
      · exact absurd (List.mem_map.2 ⟨(k, i), h1, by rw [← h2]⟩) hn.1
      · exact ih hn.2 h1 h2
  exact uniq _ hnd2 hi hj

/-! ### Examples -/

def x1 (c : Const) : Test := .eq (.name "x".toList) (.const c)
def elif_ (t : Test) : If := ⟨t, false, false⟩
def if_ (t : Test) : If := ⟨t, true, false⟩

/-- The bodies differ in a string. -/
def given : Given := ⟨some [⟨false, true, false⟩], false, false, false, 60, 7, 30, 4⟩

/-- `if x == 2 …`, `elif 0 == x …`, `elif x == 1 …`: a list. -/
example : (container [if_ (x1 (.int 2)), elif_ (.eq (.const (.int 0)) (.name "x".toList)), elif_ (x1 (.int 1))] fun _ => given).map (·.1) = some .toList := by
  decide +kernel

/-- A dictionary, if the numbers are others, or if there are strings, or two variables. -/
example : (container [if_ (x1 (.int 2)), elif_ (x1 (.int 3)), elif_ (x1 (.int 1))] fun _ => given).map (·.1) = some .toDict ∧
    (container [if_ (x1 (.int 0)), elif_ (x1 (.str "a".toList)), elif_ (x1 (.int 1))] fun _ => given).map (·.1) = some .toDict ∧
    (container ([0, 1, 2].map fun n => elif_ (.and_ [.eq (.name "y".toList) (.const (.int n)), x1 (.int n)])) fun _ => given).map (·.1) = some .toDict := by
  decide +kernel

/-- None for two, for other variables, or for comparisons with variables. -/
example : (container [if_ (x1 (.int 2)), elif_ (x1 (.int 3))] fun _ => given).isNone ∧
    (container [if_ (x1 (.int 2)), elif_ (x1 (.int 3)), elif_ (.eq (.name "y".toList) (.const (.int 1)))] fun _ => given).isNone ∧
    (container [if_ (x1 (.int 2)), elif_ (x1 (.int 3)), elif_ (.eq (.name "x".toList) (.name "y".toList))] fun _ => given).isNone := by
  decide +kernel

/-- Two alternatives for one body with strings in it: none; with numbers: a dictionary. -/
example : (container [if_ (.or_ [x1 (.int 2), x1 (.int 5)]), elif_ (x1 (.int 3)), elif_ (x1 (.int 1))] fun _ => given).isNone ∧
    (container [if_ (.or_ [x1 (.int 2), x1 (.int 5)]), elif_ (x1 (.int 3)), elif_ (x1 (.int 1))]
      fun _ => { given with avars := some [⟨false, true, true⟩] }).map (·.1) = some .toDict := by
  decide +kernel

/-- Other conditions before or after them. -/
example : (container [if_ (.other 0), elif_ (x1 (.int 2)), elif_ (x1 (.int 3)), elif_ (x1 (.int 1))] fun _ => given).map (·.2.length) = some 3 ∧
    (container [if_ (x1 (.int 2)), elif_ (x1 (.int 3)), elif_ (x1 (.int 1)), elif_ (.other 0)] fun _ => given).map (·.2.length) = some 3 ∧
    (container [if_ (.other 0), elif_ (x1 (.int 2)), elif_ (x1 (.int 3)), elif_ (x1 (.int 1)), elif_ (.other 0)] fun _ => given).isNone := by
  decide +kernel

/-- `x == 1 and (y == 2 or y == 3)` -/
example : vals (.and_ [.eq (.name "y".toList) (.const (.int 1)), .or_ [x1 (.int 2), x1 (.int 3)]]) =
    some [[("x".toList, .int 2), ("y".toList, .int 1)], [("x".toList, .int 3), ("y".toList, .int 1)]] := by decide +kernel

/-- With `x == 3` the second branch is executed, by the `if`s and by looking it up. -/
example : run (fun _ => some (.num 3)) (fun _ _ => false) (fun _ => false) false 0 [if_ (x1 (.int 2)), elif_ (x1 (.int 3)), { elif_ (x1 (.int 1)) with hasElse := true }] = [.body 1] ∧
    replaced (fun _ => some (.num 3)) (table [[[("x".toList, .int 2)]], [[("x".toList, .int 3)]], [[("x".toList, .int 1)]]]) ["x".toList] (some 2) = [.body 1] ∧
    replaced (fun _ => none) (table [[[("x".toList, .int 2)]], [[("x".toList, .int 3)]], [[("x".toList, .int 1)]]]) ["x".toList] (some 2) = [.else_ 2] := by
  decide +kernel

/-- The same for all values of `x`: `if x == 2 …`, `elif x == 0 …`, `elif x == 1 …`. -/
example (env : Str → Option Key) : replaced env (table [[[("x".toList, .int 2)]], [[("x".toList, .int 0)]], [[("x".toList, .int 1)]]]) ["x".toList] none =
    run env (fun _ _ => false) (fun _ => false) false 0 [if_ (x1 (.int 2)), elif_ (x1 (.int 0)), elif_ (x1 (.int 1))] :=
  C121_same_partial env (fun _ _ => false) (fun _ => false) (ifs := [if_ (x1 (.int 2)), elif_ (x1 (.int 0)), elif_ (x1 (.int 1))])
    (l := [(if_ (x1 (.int 2)), [[("x".toList, .int 2)]]), (elif_ (x1 (.int 0)), [[("x".toList, .int 0)]]), (elif_ (x1 (.int 1)), [[("x".toList, .int 1)]])])
    ⟨[], [], rfl, by simp, by decide +kernel, by simp, by decide, .inl rfl⟩ (by decide +kernel)
    (C121_list (by decide +kernel)) (.inl ⟨by decide, by decide⟩)

/-! ### Where the code does not do what is said -/

/-- `if x == 1: print("a")`, `if x == 1: print("b")`, `if x == 2: print("c")`: a dictionary is suggested, while two of the bodies are executed. -/
theorem C121_both_counterexample :
    let ifs := [if_ (x1 (.int 1)), if_ (x1 (.int 1)), if_ (x1 (.int 2))]
    container ifs (fun _ => given) = some (.toDict, ifs) ∧ run (fun _ => some (.num 1)) (fun _ _ => false) (fun _ => false) false 0 ifs = [.body 0, .body 1] := by
  refine ⟨?_, by decide +kernel⟩
  rw [C121_reported]
  refine ⟨[(if_ (x1 (.int 1)), [[("x".toList, .int 1)]]), (if_ (x1 (.int 1)), [[("x".toList, .int 1)]]), (if_ (x1 (.int 2)), [[("x".toList, .int 2)]])],
    ⟨[], [], rfl, by simp, by decide +kernel, by simp, by decide, .inl rfl⟩, rfl, ⟨["x".toList], by decide +kernel⟩,
    ⟨_, rfl, by decide, by simp⟩, rfl, rfl, rfl, by decide, by decide, ?_⟩
  rw [← symbol_iff]
  decide +kernel

/-- `if x == 1 …`, `elif x == 1 or x == 2 …`, `elif x == 3 …`: the dictionary has a key with two values, of which the last is kept, while the first
of the bodies is executed. -/
theorem C121_twice_counterexample :
    let ifs := [if_ (x1 (.int 1)), elif_ (.or_ [x1 (.int 1), x1 (.int 2)]), elif_ (x1 (.int 3))]
    (container ifs fun _ => given).map (·.1) = some .toDict ∧
      run (fun _ => some (.num 1)) (fun _ _ => false) (fun _ => false) false 0 ifs = [.body 0] ∧
      replaced (fun _ => some (.num 1)) (table (ifs.filterMap fun i => vals i.test)) ["x".toList] none = [.body 1] := by
  decide +kernel

/-- `if x == 1 …`, `elif x == 2 …`, `else …`, followed by `if x == 3 …`, `else …`: all of these are taken for one `if`. Two branches are executed. -/
theorem C121_else_counterexample :
    let ifs := [if_ (x1 (.int 1)), { elif_ (x1 (.int 2)) with hasElse := true }, { if_ (x1 (.int 3)) with hasElse := true }]
    (container ifs fun _ => given).map (·.1) = some .toDict ∧
      run (fun _ => none) (fun _ _ => false) (fun _ => false) false 0 ifs = [.else_ 1, .else_ 2] := by
  decide +kernel

end Verif.IfContainer
