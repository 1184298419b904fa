import Verif.Model.Repetition
import Mathlib.Tactic.ByContra

/-! C41: code common to all branches of an `if`. -/

namespace Verif.Py

/-! ### What is to be shown -/

/-- The first `n` statements are the same in all branches (each has that many). -/
def CommonStart (branches : List (List Stmt)) (n : Nat) : Prop :=
  ∀ b ∈ branches, n ≤ b.length ∧ ∀ b' ∈ branches, (b.take n).map Stmt.text = (b'.take n).map Stmt.text

/-- The last `n` statements are the same in all branches. -/
def CommonEnd (branches : List (List Stmt)) (n : Nat) : Prop :=
  ∀ b ∈ branches, n ≤ b.length ∧
    ∀ b' ∈ branches, (b.drop (b.length - n)).map Stmt.text = (b'.drop (b'.length - n)).map Stmt.text

/-- The largest number with a property. -/
def Largest (P : Nat → Prop) (n : Nat) : Prop := P n ∧ ∀ m, P m → m ≤ n

/-- The branches of an `if` with an `else`: one for each condition, and the last one. -/
inductive Branches : IfChain → List (List Stmt) → Prop
  | ifElse {body orelse : List Stmt} : orelse ≠ [] → Branches (.ifElse body orelse) [body, orelse]
  | ifElif {body : List Stmt} {rest : IfChain} {bs : List (List Stmt)} :
    Branches rest bs → Branches (.ifElif body rest) (body :: bs)

/-! ### Lemmas -/

theorem branches_iff : ∀ (node : IfChain) (bs : List (List Stmt)), node.branches = some bs ↔ Branches node bs
  | .ifElse body orelse, bs => by
    simp only [IfChain.branches]
    by_cases h : orelse = []
    · simp only [h, if_true, reduceCtorEq, false_iff]
      intro hb
      cases hb with
      | ifElse hne => exact hne rfl
    · simp only [h, if_false, Option.some.injEq]
      constructor
      · rintro rfl; exact .ifElse h
      · intro hb; cases hb; rfl
  | .ifElif body rest, bs => by
    simp only [IfChain.branches]
    cases hr : rest.branches with
    | none =>
      simp only [reduceCtorEq, false_iff]
      intro hb
      cases hb with
      | ifElif h => rw [(branches_iff rest _).2 h] at hr; cases hr
    | some bs' =>
      simp only [Option.some.injEq]
      constructor
      · rintro rfl; exact .ifElif ((branches_iff rest bs').1 hr)
      · intro hb
        cases hb with
        | ifElif h =>
          rw [(branches_iff rest _).2 h] at hr
          cases hr
          rfl

theorem differenceFrom_spec (reference : List Str) (compare : List (List Str)) : ∀ (fuel i : Nat),
    i ≤ differenceFrom reference compare i fuel ∧ differenceFrom reference compare i fuel ≤ i + fuel ∧
    (∀ j, i ≤ j → j < differenceFrom reference compare i fuel → ∀ b ∈ compare, reference[j]? = b[j]?) ∧
    (differenceFrom reference compare i fuel < i + fuel →
      ∃ b ∈ compare, reference[differenceFrom reference compare i fuel]? ≠
        b[differenceFrom reference compare i fuel]?)
  | 0, i => by
    refine ⟨by simp [differenceFrom], by simp [differenceFrom], ?_, by simp [differenceFrom]⟩
    intro j h1 h2
    simp only [differenceFrom] at h2
    omega
  | fuel + 1, i => by
    simp only [differenceFrom]
    split
    · rename_i h
      rw [List.any_eq_true] at h
      obtain ⟨b, hb, h⟩ := h
      refine ⟨by omega, by omega, ?_, fun _ => ⟨b, hb, by simpa using h⟩⟩
      intro j h1 h2
      omega
    · rename_i h
      simp only [List.any_eq_true, decide_eq_true_eq, not_exists, not_and, ne_eq, Decidable.not_not] at h
      obtain ⟨h1, h2, h3, h4⟩ := differenceFrom_spec reference compare fuel (i + 1)
      refine ⟨by omega, by omega, ?_, ?_⟩
      · intro j hj hj' b hb
        rcases Nat.lt_or_ge i j with hij | hij
        · exact h3 j hij hj' b hb
        · have : j = i := by omega
          subst this
          exact h b hb
      · intro hlt
        exact h4 (by omega)

theorem minLength_le {σ : Type} : ∀ (bs : List (List σ)), ∀ b ∈ bs, minLength bs ≤ b.length
  | [b], b', h => by simp only [List.mem_cons, List.not_mem_nil, or_false] at h; subst h; simp [minLength]
  | b :: c :: bs, b', h => by
    simp only [minLength]
    rcases List.mem_cons.1 h with rfl | h
    · exact Nat.min_le_left _ _
    · exact Nat.le_trans (Nat.min_le_right _ _) (minLength_le (c :: bs) b' h)

theorem le_minLength {σ : Type} : ∀ (bs : List (List σ)) (m : Nat), bs ≠ [] → (∀ b ∈ bs, m ≤ b.length) →
    m ≤ minLength bs
  | [b], m, _, h => h b (by simp)
  | b :: c :: bs, m, _, h => by
    simp only [minLength]
    exact Nat.le_min.2 ⟨h b (by simp), le_minLength (c :: bs) m (by simp) fun d hd => h d (by simp [hd])⟩

/-- The longest common prefix of a list and others. -/
theorem difference_spec (reference : List Str) (compare : List (List Str)) (m : Nat)
    (hm : ∀ b ∈ reference :: compare, m ≤ b.length)
    (hmax : ∀ k, (∀ b ∈ reference :: compare, k ≤ b.length) → k ≤ m) :
    (∀ b ∈ reference :: compare, differenceFrom reference compare 0 m ≤ b.length) ∧
    (∀ b ∈ compare, b.take (differenceFrom reference compare 0 m) =
      reference.take (differenceFrom reference compare 0 m)) ∧
    ∀ k, (∀ b ∈ reference :: compare, k ≤ b.length) → (∀ b ∈ compare, b.take k = reference.take k) →
      k ≤ differenceFrom reference compare 0 m := by
  obtain ⟨_, h2, h3, h4⟩ := differenceFrom_spec reference compare m 0
  refine ⟨fun b hb => Nat.le_trans (by omega) (hm b hb), ?_, ?_⟩
  · intro b hb
    apply List.ext_getElem?
    intro j
    rw [List.getElem?_take, List.getElem?_take]
    split
    · rename_i hj; exact (h3 j (by omega) hj b hb).symm
    · rfl
  · intro k hk heq
    by_contra hlt
    have hkm := hmax k hk
    obtain ⟨b, hb, hne⟩ := h4 (by omega)
    apply hne
    have := congrArg (·[differenceFrom reference compare 0 m]?) (heq b hb)
    simp only [List.getElem?_take] at this
    rw [if_pos (by omega), if_pos (by omega)] at this
    exact this.symm

theorem take_reverse_map (b : List Stmt) (n : Nat) :
    (b.reverse.map Stmt.text).take n = ((b.drop (b.length - n)).map Stmt.text).reverse := by
  rw [← List.map_take, ← List.map_reverse, List.take_reverse]

/-- `get_stmts_difference` from the start. -/
theorem C41_prefix {branches : List (List Stmt)} (hne : branches ≠ []) :
    Largest (CommonStart branches) (stmtsDifference branches true) := by
  match branches, hne with
  | r :: cs, _ =>
    have hmem : ∀ b ∈ r :: cs, b.map Stmt.text ∈ r.map Stmt.text :: cs.map fun b => b.map Stmt.text := by
      intro b hb
      rw [← List.map_cons (f := fun b => List.map Stmt.text b)]
      exact List.mem_map.2 ⟨b, hb, rfl⟩
    have hm : ∀ b ∈ (r :: cs).map (fun b => b.map Stmt.text), minLength (r :: cs) ≤ b.length := by
      intro b hb
      obtain ⟨c, hc, rfl⟩ := List.mem_map.1 hb
      simpa using minLength_le _ c hc
    have hmax : ∀ k, (∀ b ∈ (r :: cs).map (fun b => b.map Stmt.text), k ≤ b.length) → k ≤ minLength (r :: cs) := by
      intro k hk
      refine le_minLength _ k (by simp) fun b hb => ?_
      simpa using hk (b.map Stmt.text) (List.mem_map.2 ⟨b, hb, rfl⟩)
    obtain ⟨h1, h2, h3⟩ := difference_spec (r.map Stmt.text) (cs.map fun b => b.map Stmt.text)
      (minLength (r :: cs)) (by simpa only [List.map_cons] using hm) (by simpa only [List.map_cons] using hmax)
    have hd : stmtsDifference (r :: cs) true =
      differenceFrom (r.map Stmt.text) (cs.map fun b => b.map Stmt.text) 0 (minLength (r :: cs)) := rfl
    rw [← hd] at h1 h2 h3
    generalize stmtsDifference (r :: cs) true = n at h1 h2 h3
    have hr : ∀ b ∈ r :: cs, (b.take n).map Stmt.text = (r.take n).map Stmt.text := by
      intro b hb
      rcases List.mem_cons.1 hb with rfl | hb
      · rfl
      · rw [List.map_take, List.map_take]
        exact h2 _ (List.mem_map.2 ⟨b, hb, rfl⟩)
    refine ⟨fun b hb => ⟨?_, fun b' hb' => (hr b hb).trans (hr b' hb').symm⟩, ?_⟩
    · simpa using h1 (b.map Stmt.text) (hmem b hb)
    · intro k hk
      refine h3 k ?_ ?_
      · intro b hb
        obtain ⟨c, hc, rfl⟩ := List.mem_map.1 (by simpa using hb : b ∈ (r :: cs).map fun b => b.map Stmt.text)
        simpa using (hk c hc).1
      · intro b hb
        obtain ⟨c, hc, rfl⟩ := List.mem_map.1 hb
        rw [← List.map_take, ← List.map_take]
        exact (hk c (by simp [hc])).2 r (by simp)

/-- `get_stmts_difference` from the end. -/
theorem C41_suffix {branches : List (List Stmt)} (hne : branches ≠ []) :
    Largest (CommonEnd branches) (stmtsDifference branches false) := by
  match branches, hne with
  | r :: cs, _ =>
    have hmem : ∀ b ∈ r :: cs,
        b.reverse.map Stmt.text ∈ r.reverse.map Stmt.text :: cs.map fun b => b.reverse.map Stmt.text := by
      intro b hb
      rw [← List.map_cons (f := fun b => List.map Stmt.text (List.reverse b))]
      exact List.mem_map.2 ⟨b, hb, rfl⟩
    have hm : ∀ b ∈ (r :: cs).map (fun b => b.reverse.map Stmt.text), minLength (r :: cs) ≤ b.length := by
      intro b hb
      obtain ⟨c, hc, rfl⟩ := List.mem_map.1 hb
      simpa using minLength_le _ c hc
    have hmax : ∀ k, (∀ b ∈ (r :: cs).map (fun b => b.reverse.map Stmt.text), k ≤ b.length) →
        k ≤ minLength (r :: cs) := by
      intro k hk
      refine le_minLength _ k (by simp) fun b hb => ?_
      simpa using hk (b.reverse.map Stmt.text) (List.mem_map.2 ⟨b, hb, rfl⟩)
    obtain ⟨h1, h2, h3⟩ := difference_spec (r.reverse.map Stmt.text) (cs.map fun b => b.reverse.map Stmt.text)
      (minLength (r :: cs)) (by simpa only [List.map_cons] using hm) (by simpa only [List.map_cons] using hmax)
    have hd : stmtsDifference (r :: cs) false =
      differenceFrom (r.reverse.map Stmt.text) (cs.map fun b => b.reverse.map Stmt.text) 0 (minLength (r :: cs)) := rfl
    rw [← hd] at h1 h2 h3
    generalize stmtsDifference (r :: cs) false = n at h1 h2 h3
    have hl : ∀ b ∈ r :: cs, n ≤ b.length := by
      intro b hb
      simpa using h1 (b.reverse.map Stmt.text) (hmem b hb)
    have hr : ∀ b ∈ r :: cs, (b.drop (b.length - n)).map Stmt.text = (r.drop (r.length - n)).map Stmt.text := by
      intro b hb
      rcases List.mem_cons.1 hb with rfl | hb'
      · rfl
      · have := h2 _ (List.mem_map.2 ⟨b, hb', rfl⟩)
        rw [take_reverse_map b n, take_reverse_map r n] at this
        exact List.reverse_inj.1 this
    refine ⟨fun b hb => ⟨hl b hb, fun b' hb' => (hr b hb).trans (hr b' hb').symm⟩, ?_⟩
    intro k hk
    refine h3 k ?_ ?_
    · intro b hb
      obtain ⟨c, hc, rfl⟩ := List.mem_map.1 (by simpa using hb : b ∈ (r :: cs).map fun b => b.reverse.map Stmt.text)
      simpa using (hk c hc).1
    · intro b hb
      obtain ⟨c, hc, rfl⟩ := List.mem_map.1 hb
      rw [take_reverse_map c k, take_reverse_map r k,
        (hk c (by simp [hc])).2 r (by simp)]

theorem Largest.unique {P : Nat → Prop} {n m : Nat} (hn : Largest P n) (hm : Largest P m) : n = m :=
  Nat.le_antisymm (hm.2 n hn.1) (hn.2 m hm.1)

theorem linesDifference_ok {reference : List Stmt} {n : Nat} {forward : Bool} {k : Int}
    (h : linesDifference reference n forward = .ok k) :
    ∃ first last, reference[if forward then 0 else reference.length - n]? = some first ∧
      reference[if forward then n - 1 else reference.length - 1]? = some last ∧
      k = last.toLine - first.fromLine + 1 := by
  unfold linesDifference at h
  split at h
  · rename_i first last h1 h2
    split at h
    · cases h; exact ⟨first, last, h1, h2, rfl⟩
    · cases h
  · cases h

theorem duplicateSuffix_mem {branches : List (List Stmt)} {msgs : List (Int × Bool)}
    (h : duplicateSuffix branches = .ok msgs) {k : Int} {before : Bool} (hk : (k, before) ∈ msgs) :
    before = false ∧ ∃ reference compare, branches = reference :: compare ∧
      1 ≤ stmtsDifference branches false ∧
      linesDifference reference (stmtsDifference branches false) false = .ok k := by
  unfold duplicateSuffix at h
  match branches with
  | [] => cases h
  | reference :: compare =>
    simp only at h
    split at h
    · rename_i h1
      split at h
      · cases h; cases hk
      · cases hl : linesDifference reference (stmtsDifference (reference :: compare) false) false with
        | error x => simp [hl] at h
        | ok n =>
          simp only [hl, Except.ok.injEq] at h
          subst h
          simp only [List.mem_cons, List.not_mem_nil, or_false, Prod.mk.injEq] at hk
          obtain ⟨rfl, rfl⟩ := hk
          exact ⟨rfl, reference, compare, rfl, h1, hl⟩
    · cases h; cases hk

theorem duplicateIfBranches_mem {isElif : Bool} {node : IfChain} {msgs : List (Int × Bool)}
    (h : duplicateIfBranches isElif node = .ok msgs) {k : Int} {before : Bool} (hk : (k, before) ∈ msgs) :
    isElif = false ∧ ∃ reference compare, node.branches = some (reference :: compare) ∧
      1 ≤ stmtsDifference (reference :: compare) before ∧
      linesDifference reference (stmtsDifference (reference :: compare) before) before = .ok k := by
  unfold duplicateIfBranches at h
  split at h
  · cases h; cases hk
  rename_i hel
  refine ⟨by simpa using hel, ?_⟩
  split at h
  · cases h; cases hk
  · cases h
  · rename_i reference compare hb
    refine ⟨reference, compare, hb, ?_⟩
    have hsuf : ∀ ms, duplicateSuffix (reference :: compare) = .ok ms → (k, before) ∈ ms →
        1 ≤ stmtsDifference (reference :: compare) before ∧
        linesDifference reference (stmtsDifference (reference :: compare) before) before = .ok k := by
      intro ms hms hk
      obtain ⟨rfl, r, c, heq, h1, h2⟩ := duplicateSuffix_mem hms hk
      cases heq
      exact ⟨h1, h2⟩
    split at h
    · rename_i h1
      cases hl : linesDifference reference (stmtsDifference (reference :: compare) true) true with
      | error x => simp [hl] at h
      | ok n =>
        simp only [hl] at h
        split at h
        · cases h
          simp only [List.mem_cons, List.not_mem_nil, or_false, Prod.mk.injEq] at hk
          obtain ⟨rfl, rfl⟩ := hk
          exact ⟨h1, hl⟩
        · cases hms : duplicateSuffix (reference :: compare) with
          | error x => simp [hms] at h
          | ok ms =>
            simp only [hms, Except.ok.injEq] at h
            subst h
            rcases List.mem_cons.1 hk with hk | hk
            · simp only [Prod.mk.injEq] at hk
              obtain ⟨rfl, rfl⟩ := hk
              exact ⟨h1, hl⟩
            · exact hsuf ms hms hk
    · exact hsuf msgs h hk

/-! ### The property -/

/-- C41, code before the `if`: the lines reported are those of the longest sequence of statements that
starts all branches, which is not empty. -/
theorem C41_before {isElif : Bool} {node : IfChain} {msgs : List (Int × Bool)}
    (h : duplicateIfBranches isElif node = .ok msgs) {k : Int} (hk : (k, true) ∈ msgs) :
    ∃ reference compare n first last, Branches node (reference :: compare) ∧
      Largest (CommonStart (reference :: compare)) n ∧ 1 ≤ n ∧
      reference[0]? = some first ∧ reference[n - 1]? = some last ∧ k = last.toLine - first.fromLine + 1 := by
  obtain ⟨_, reference, compare, hb, h1, hl⟩ := duplicateIfBranches_mem h hk
  obtain ⟨first, last, h2, h3, h4⟩ := linesDifference_ok hl
  exact ⟨reference, compare, _, first, last, (branches_iff _ _).1 hb, C41_prefix (by simp), h1, h2, h3, h4⟩

/-- C41, code after the `if`: the lines reported are those of the longest sequence of statements that
ends all branches. -/
theorem C41_after {isElif : Bool} {node : IfChain} {msgs : List (Int × Bool)}
    (h : duplicateIfBranches isElif node = .ok msgs) {k : Int} (hk : (k, false) ∈ msgs) :
    ∃ reference compare n first last, Branches node (reference :: compare) ∧
      Largest (CommonEnd (reference :: compare)) n ∧ 1 ≤ n ∧
      reference[reference.length - n]? = some first ∧ reference[reference.length - 1]? = some last ∧
      k = last.toLine - first.fromLine + 1 := by
  obtain ⟨_, reference, compare, hb, h1, hl⟩ := duplicateIfBranches_mem h hk
  obtain ⟨first, last, h2, h3, h4⟩ := linesDifference_ok hl
  exact ⟨reference, compare, _, first, last, (branches_iff _ _).1 hb, C41_suffix (by simp), h1, h2, h3, h4⟩

/-- An `if` without an `else`, or with an `elif` that has none, is not reported: no code is common to all
of its branches. -/
theorem C41_no_else {isElif : Bool} {node : IfChain} (h : ∀ branches, ¬Branches node branches) :
    duplicateIfBranches isElif node = .ok [] := by
  have h : node.branches = none := by
    cases hb : node.branches with
    | none => rfl
    | some bs => exact absurd ((branches_iff _ _).1 hb) (h bs)
  unfold duplicateIfBranches
  cases isElif <;> simp [h]

/-- Statements that start all branches are always reported. -/
theorem C41_complete {node : IfChain} {branches : List (List Stmt)} (hb : Branches node branches) {n : Nat}
    (hn : Largest (CommonStart branches) n) (h1 : 1 ≤ n) {msgs : List (Int × Bool)}
    (h : duplicateIfBranches false node = .ok msgs) : ∃ k, (k, true) ∈ msgs := by
  replace hb := (branches_iff _ _).2 hb
  unfold duplicateIfBranches at h
  simp only [Bool.false_eq_true, if_false, hb] at h
  match branches with
  | [] => cases h
  | reference :: compare =>
    have : stmtsDifference (reference :: compare) true = n := (C41_prefix (by simp)).unique hn
    simp only [this] at h
    rw [if_pos h1] at h
    cases hl : linesDifference reference n true with
    | error x => simp [hl] at h
    | ok m =>
      simp only [hl] at h
      split at h
      · cases h; exact ⟨m, by simp⟩
      · cases hms : duplicateSuffix (reference :: compare) with
        | error x => simp [hms] at h
        | ok ms =>
          simp only [hms, Except.ok.injEq] at h
          subst h
          exact ⟨m, by simp⟩

/-- Statements that end all branches are reported, unless a branch consists of the common start alone or the
only common statement is a `return`. -/
theorem C41_complete_after {node : IfChain} {branches : List (List Stmt)} (hb : Branches node branches) {n n' : Nat}
    (hn : Largest (CommonStart branches) n) (hmore : n = 0 ∨ ∀ b ∈ branches, n < b.length)
    (hn' : Largest (CommonEnd branches) n') (h1 : 2 ≤ n' ∨ n' = 1 ∧ ∀ b ∈ branches, ∀ s, b.getLast? = some s → s.isReturn = false)
    {msgs : List (Int × Bool)} (h : duplicateIfBranches false node = .ok msgs) : ∃ k, (k, false) ∈ msgs := by
  replace hb := (branches_iff _ _).2 hb
  unfold duplicateIfBranches at h
  simp only [Bool.false_eq_true, if_false, hb] at h
  match branches with
  | [] => cases h
  | reference :: compare =>
    have e1 : stmtsDifference (reference :: compare) true = n := (C41_prefix (by simp)).unique hn
    have e2 : stmtsDifference (reference :: compare) false = n' := (C41_suffix (by simp)).unique hn'
    have hsuffix : ∀ ms, duplicateSuffix (reference :: compare) = .ok ms → ∃ k, (k, false) ∈ ms := by
      intro ms hms
      simp only [duplicateSuffix, e2] at hms
      rw [if_pos (by omega)] at hms
      rw [if_neg ?_] at hms
      · cases hl : linesDifference reference n' false with
        | error x => simp [hl] at hms
        | ok m =>
          simp only [hl, Except.ok.injEq] at hms
          subst hms
          exact ⟨m, by simp⟩
      · rintro ⟨he, hr⟩
        rcases h1 with h1 | ⟨_, h1⟩
        · omega
        · cases hlast : reference.getLast? with
          | none => simp [hlast] at hr
          | some s => simp [hlast, h1 reference (by simp) s hlast] at hr
    simp only [e1] at h
    by_cases hn1 : n ≥ 1
    · rw [if_pos hn1] at h
      cases hl : linesDifference reference n true with
      | error x => simp [hl] at h
      | ok m =>
        simp only [hl] at h
        rw [if_neg ?_] at h
        · cases hms : duplicateSuffix (reference :: compare) with
          | error x => simp [hms] at h
          | ok ms =>
            simp only [hms, Except.ok.injEq] at h
            subst h
            obtain ⟨k, hk⟩ := hsuffix ms hms
            exact ⟨k, List.mem_cons_of_mem _ hk⟩
        · rcases hmore with hmore | hmore
          · omega
          · simp only [List.any_eq_true, decide_eq_true_eq, not_exists, not_and]
            intro b hb' he
            have := hmore b hb'
            omega
    · rw [if_neg hn1] at h
      exact hsuffix msgs h

/-- If both parts are reported, no branch consists of the common start alone. -/
theorem both_reported {isElif : Bool} {node : IfChain} {branches : List (List Stmt)}
    (hb : Branches node branches) {msgs : List (Int × Bool)}
    (h : duplicateIfBranches isElif node = .ok msgs) {k k' : Int} (hk : (k, true) ∈ msgs) (hk' : (k', false) ∈ msgs)
    {n : Nat} (hn : Largest (CommonStart branches) n) : ∀ b ∈ branches, n < b.length := by
  replace hb := (branches_iff _ _).2 hb
  unfold duplicateIfBranches at h
  split at h
  · cases h; cases hk
  simp only [hb] at h
  match branches with
  | [] => cases h
  | reference :: compare =>
    have hd : stmtsDifference (reference :: compare) true = n := (C41_prefix (by simp)).unique hn
    simp only [hd] at h
    split at h
    · cases hl : linesDifference reference n true with
      | error x => simp [hl] at h
      | ok m =>
        simp only [hl] at h
        split at h
        · cases h; simp at hk'
        · rename_i hany
          intro b hbm
          have := (hn.1 b hbm).1
          rw [List.any_eq_true] at hany
          rcases Nat.lt_or_eq_of_le this with h | h
          · exact h
          · exact absurd ⟨b, hbm, by simpa using h⟩ hany
    · have := (duplicateSuffix_mem h hk).1
      cases this

theorem text_getElem? (b : List Stmt) (i : Nat) : (b.map Stmt.text)[i]? = b[i]?.map Stmt.text := by simp

/-- C41, disjointness (partial). If code is reported both before and after the `if`, then the two parts do
not overlap in any branch, provided all branches have the same number of statements or no branch repeats a
statement.

Missing: branches of different lengths that repeat a statement; see `C41_overlap_counterexample`. -/
theorem C41_disjoint_partial {isElif : Bool} {node : IfChain} {branches : List (List Stmt)}
    (hb : Branches node branches) {msgs : List (Int × Bool)}
    (h : duplicateIfBranches isElif node = .ok msgs) {k k' : Int} (hk : (k, true) ∈ msgs) (hk' : (k', false) ∈ msgs)
    {n n' : Nat} (hn : Largest (CommonStart branches) n) (hn' : Largest (CommonEnd branches) n')
    (hyp : (∀ b ∈ branches, ∀ b' ∈ branches, b.length = b'.length) ∨
      ∀ b ∈ branches, (b.map Stmt.text).Nodup) : ∀ b ∈ branches, n + n' ≤ b.length := by
  have hlt := both_reported hb h hk hk' hn
  intro b0 hb0
  by_contra hover
  have hstart : ∀ b ∈ branches, ∀ j, j < n → b[j]?.map Stmt.text = b0[j]?.map Stmt.text := by
    intro b hbm j hj
    have := congrArg (·[j]?) ((hn.1 b hbm).2 b0 hb0)
    simpa [List.getElem?_take, hj] using this
  have hend : ∀ b ∈ branches, ∀ j, j < n' →
      b[b.length - n' + j]?.map Stmt.text = b0[b0.length - n' + j]?.map Stmt.text := by
    intro b hbm j hj
    have := congrArg (·[j]?) ((hn'.1 b hbm).2 b0 hb0)
    simpa [List.getElem?_drop] using this
  have hpos : 1 ≤ n' := by
    have := hlt b0 hb0
    omega
  have hsame : ∀ b ∈ branches, b.length = b0.length := by
    rcases hyp with hyp | hyp
    · exact fun b hbm => hyp b hbm b0 hb0
    · intro b hbm
      have hl := (hn'.1 b hbm).1
      have hl0 := (hn'.1 b0 hb0).1
      have e1 := hstart b hbm (b0.length - n') (by omega)
      have e2 := hend b hbm 0 (by omega)
      simp only [Nat.add_zero] at e2
      have e3 : (b.map Stmt.text)[b0.length - n']? = (b.map Stmt.text)[b.length - n']? := by
        rw [text_getElem?, text_getElem?, e1, e2]
      have hlb := hlt b hbm
      have hl1 : b0.length - n' < (b.map Stmt.text).length := by simp; omega
      have hl2 : b.length - n' < (b.map Stmt.text).length := by simp; omega
      rw [List.getElem?_eq_getElem hl1, List.getElem?_eq_getElem hl2, Option.some.injEq] at e3
      have := (List.getElem_inj (hyp b hbm)).1 e3
      omega
  have hmore : CommonStart branches (n + 1) := by
    have hkey : ∀ b ∈ branches, (b.take (n + 1)).map Stmt.text = (b0.take (n + 1)).map Stmt.text := by
      intro b hbm
      apply List.ext_getElem?
      intro j
      rw [text_getElem?, text_getElem?, List.getElem?_take, List.getElem?_take]
      split
      · rcases Nat.lt_or_ge j n with hj | hj
        · exact hstart b hbm j hj
        · have hjn : j = n := by omega
          subst hjn
          have hb0' := hlt b0 hb0
          have hl0 := (hn'.1 b0 hb0).1
          have := hend b hbm (j - (b0.length - n')) (by omega)
          rw [hsame b hbm] at this
          have hidx : b0.length - n' + (j - (b0.length - n')) = j := by omega
          rwa [hidx] at this
      · rfl
    exact fun b hbm => ⟨hlt b hbm, fun b' hbm' => (hkey b hbm).trans (hkey b' hbm').symm⟩
  have := hn.2 (n + 1) hmore
  omega

/-- A statement of one line. -/
def lineStmt (c : Char) (line : Nat) : Stmt := ⟨[c], line, line, false⟩

/-- ```
if …:       # 1
    a       # 2
    b       # 3
    c       # 4
else:
    a       # 6
    c       # 7
```
One line is to be moved before and one after the `if`. -/
example : duplicateIfBranches false (.ifElse [lineStmt 'a' 2, lineStmt 'b' 3, lineStmt 'c' 4]
    [lineStmt 'a' 6, lineStmt 'c' 7]) = .ok [(1, true), (1, false)] := by decide

/-- C41 is false where statements repeat: of the branches `a a b` and `a a a b` two lines are to be moved
before the `if` and three after it, more than the first branch has. -/
theorem C41_overlap_counterexample :
    duplicateIfBranches false (.ifElse [lineStmt 'a' 2, lineStmt 'a' 3, lineStmt 'b' 4]
      [lineStmt 'a' 6, lineStmt 'a' 7, lineStmt 'a' 8, lineStmt 'b' 9]) = .ok [(2, true), (3, false)] := by decide

end Verif.Py
