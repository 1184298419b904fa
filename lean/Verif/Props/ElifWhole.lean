import Verif.Model.ElifWhole
import Verif.Props.Elif
import Verif.Props.Negation

/-!
**C138**: what is reported about a whole `if` statement with `elif`, where tests may be impure or not be translated.
-/

namespace Verif.Elif

section
variable {α ν : Type}

/-! ### Claims -/

/-- No earlier test is true. Each test is evaluated once at most; `truth` has the truth values of these evaluations. -/
def Gets (truth : ν → Bool) (es : List (Entry α ν)) (n : Nat) : Prop := ∀ e ∈ es.take (n - 1), e.test.truth truth = false

/-- What a report claims about the whole statement. -/
def Claim (truth : ν → Bool) (es : List (Entry α ν)) (hasElse : Bool) : Report ν → Prop
  | .alwaysTrue n => ∃ e, es[n - 1]? = some e ∧ (Gets truth es n → e.test.truth truth = true)
  | .alwaysFalse n => ∃ e, es[n - 1]? = some e ∧ (Gets truth es n → e.test.truth truth = false)
  | .redundant n isOr operands => ∃ e, es[n - 1]? = some e ∧
      (Gets truth es n → e.test.truth truth = if isOr then operands.any truth else operands.all truth)
  | .unreachable n => n ≤ (if hasElse then es.length + 1 else es.length) ∧ ¬ Gets truth es n
  | .reorder order => executedOrder truth order = executed truth (es.map (·.test)) hasElse 1

theorem claim_shift {truth : ν → Bool} {es : List (Entry α ν)} {hasElse : Bool} (pre : List (Entry α ν)) : ∀ {r : Report ν},
    Claim truth es hasElse r → (∀ order, r ≠ .reorder order) → (∀ n, r = .alwaysTrue n ∨ r = .alwaysFalse n ∨ r = .unreachable n ∨
      (∃ o ops, r = .redundant n o ops) → 0 < n) → Claim truth (pre ++ es) hasElse (r.shift pre.length) := by
  have hget : ∀ n, 0 < n → (pre ++ es)[n + pre.length - 1]? = es[n - 1]? := by
    intro n hn
    rw [List.getElem?_append_right (by omega)]
    congr 1
    omega
  have hgets : ∀ n, 0 < n → Gets truth (pre ++ es) (n + pre.length) → Gets truth es n := by
    intro n hn h e he
    refine h e ?_
    rw [List.take_append]
    refine List.mem_append_right _ ?_
    rwa [show n + pre.length - 1 - pre.length = n - 1 by omega]
  intro r h hr hpos
  cases r with
  | reorder order => exact absurd rfl (hr order)
  | alwaysTrue n =>
    have hn := hpos n (.inl rfl)
    obtain ⟨e, he, ht⟩ := h
    exact ⟨e, by rw [hget n hn, he], fun hg => ht (hgets n hn hg)⟩
  | alwaysFalse n =>
    have hn := hpos n (.inr (.inl rfl))
    obtain ⟨e, he, ht⟩ := h
    exact ⟨e, by rw [hget n hn, he], fun hg => ht (hgets n hn hg)⟩
  | redundant n isOr ops =>
    have hn := hpos n (.inr (.inr (.inr ⟨_, _, rfl⟩)))
    obtain ⟨e, he, ht⟩ := h
    exact ⟨e, by rw [hget n hn, he], fun hg => ht (hgets n hn hg)⟩
  | unreachable n =>
    have hn := hpos n (.inr (.inr (.inl rfl)))
    obtain ⟨hle, ht⟩ := h
    refine ⟨?_, fun hg => ht (hgets n hn hg)⟩
    rw [List.length_append]
    split at hle <;> rename_i hc
    · rw [if_pos hc]; omega
    · rw [if_neg hc]; omega

/-! ### Tests that are negations -/

theorem elifInsteadOfElse_spec {negation : Entry α ν → Entry α ν → Bool} {hasElse : Bool} : ∀ {es : List (Entry α ν)} {n : Nat} {rs : List (Report ν)},
    elifInsteadOfElse negation hasElse es n = some rs →
    ∃ pre a b post, es = pre ++ a :: b :: post ∧ a.pure = true ∧ b.pure = true ∧ negation a b = true ∧
      rs = .alwaysTrue (n + pre.length + 1) :: ((List.range post.length).map fun k => .unreachable (n + pre.length + 2 + k)) ++
        if hasElse then [.unreachable (n + pre.length + 2 + post.length)] else []
  | [], _, _, h => by simp [elifInsteadOfElse] at h
  | [_], _, _, h => by simp [elifInsteadOfElse] at h
  | a :: b :: es, n, rs, h => by
    rw [elifInsteadOfElse] at h
    split at h
    · rename_i hc
      simp only [Bool.and_eq_true] at hc
      simp only [Option.some.injEq] at h
      exact ⟨[], a, b, es, rfl, hc.1.1, hc.1.2, hc.2, by rw [← h]; rfl⟩
    · obtain ⟨pre, a', b', post, he, h1, h2, h3, h4⟩ := elifInsteadOfElse_spec h
      refine ⟨a :: pre, a', b', post, by rw [he]; rfl, h1, h2, h3, ?_⟩
      rw [h4, List.length_cons, show n + 1 + pre.length = n + (pre.length + 1) by omega]

theorem elifInsteadOfElse_none {negation : Entry α ν → Entry α ν → Bool} {hasElse : Bool} : ∀ {es : List (Entry α ν)} {n : Nat},
    elifInsteadOfElse negation hasElse es n = none ↔
    ∀ pre a b post, es = pre ++ a :: b :: post → ¬ (a.pure = true ∧ b.pure = true ∧ negation a b = true)
  | [], _ => by simp [elifInsteadOfElse]
  | [e], _ => by
    simp only [elifInsteadOfElse, true_iff]
    intro pre a b post h
    have := congrArg List.length h
    simp at this
    omega
  | a :: b :: es, n => by
    rw [elifInsteadOfElse]
    by_cases hc : (a.pure && b.pure && negation a b) = true
    · rw [if_pos hc]
      simp only [Bool.and_eq_true] at hc
      refine ⟨(fun h => nomatch h), fun h => absurd ⟨hc.1.1, hc.1.2, hc.2⟩ (h [] a b es rfl)⟩
    · rw [if_neg hc, elifInsteadOfElse_none]
      constructor
      · intro h pre a' b' post he
        cases pre with
        | nil =>
          simp only [List.nil_append, List.cons.injEq] at he
          obtain ⟨rfl, rfl, rfl⟩ := he
          rintro ⟨h1, h2, h3⟩
          exact hc (by rw [h1, h2, h3]; rfl)
        | cons p pre =>
          simp only [List.cons_append, List.cons.injEq] at he
          exact h pre a' b' post he.2
      · intro h pre a' b' post he
        exact h (a :: pre) a' b' post (by rw [he]; rfl)

theorem negation_claims {truth : ν → Bool} {hasElse : Bool} {pre : List (Entry α ν)} {a b : Entry α ν} {post : List (Entry α ν)}
    (h : a.test.truth truth = !b.test.truth truth) : ∀ r ∈ Report.alwaysTrue (1 + pre.length + 1) ::
      ((List.range post.length).map fun k => .unreachable (1 + pre.length + 2 + k)) ++
        (if hasElse then [.unreachable (1 + pre.length + 2 + post.length)] else []),
    Claim truth (pre ++ a :: b :: post) hasElse r := by
  have hreach : ∀ n, 1 + pre.length + 2 ≤ n → ¬ Gets truth (pre ++ a :: b :: post) n := by
    intro n hn hg
    have hmem : ∀ e ∈ pre ++ [a, b], e ∈ (pre ++ a :: b :: post).take (n - 1) := by
      intro e he
      have : pre ++ a :: b :: post = (pre ++ [a, b]) ++ post := by simp
      rw [this, List.take_append]
      refine List.mem_append_left _ ?_
      rw [List.take_of_length_le (by simp; omega)]
      exact he
    have ha := hg a (hmem a (by simp))
    have hb := hg b (hmem b (by simp))
    rw [ha, hb] at h
    cases h
  intro r hr
  rcases List.mem_cons.1 hr with rfl | hr
  · refine ⟨b, ?_, ?_⟩
    · rw [List.getElem?_append_right (by omega), show 1 + pre.length + 1 - 1 - pre.length = 1 by omega]
      rfl
    · intro hg
      have ha := hg a (by
        have : pre ++ a :: b :: post = (pre ++ [a]) ++ b :: post := by simp
        rw [this, List.take_append]
        refine List.mem_append_left _ ?_
        rw [List.take_of_length_le (by simp; omega)]
        simp)
      rw [ha] at h
      simpa using h.symm
  · rcases List.mem_append.1 hr with hr | hr
    · obtain ⟨k, hk, rfl⟩ := List.mem_map.1 hr
      rw [List.mem_range] at hk
      refine ⟨?_, hreach _ (by omega)⟩
      simp only [List.length_append, List.length_cons]
      split <;> omega
    · split at hr
      · rename_i he
        simp only [List.mem_singleton] at hr
        subst hr
        refine ⟨?_, hreach _ (by omega)⟩
        rw [if_pos he]
        simp only [List.length_append, List.length_cons]
        omega
      · simp at hr

/-! ### The part that is translated -/

theorem afterProblem_spec : ∀ {es : List (Entry α ν)} {k : Nat} {rest : List (Entry α ν)}, afterProblem es = some (k, rest) →
    ∃ pre p, es = pre ++ p :: rest ∧ (∀ e ∈ pre, e.fine = true) ∧ p.fine = false ∧ k = pre.length + 1
  | [], _, _, h => by cases h
  | e :: es, k, rest, h => by
    rw [afterProblem] at h
    split at h
    · rename_i hf
      cases ha : afterProblem es with
      | none => simp [ha] at h
      | some p =>
        simp only [ha, Option.map_some, Option.some.injEq, Prod.mk.injEq] at h
        obtain ⟨rfl, rfl⟩ := h
        obtain ⟨pre, q, he, hall, hq, hk⟩ := afterProblem_spec (es := es) (k := p.1) (rest := p.2) ha
        refine ⟨e :: pre, q, by rw [he]; rfl, ?_, hq, by rw [hk]; rfl⟩
        intro e' he'
        rcases List.mem_cons.1 he' with rfl | he'
        · exact hf
        · exact hall e' he'
    · rename_i hf
      simp only [Option.some.injEq, Prod.mk.injEq] at h
      obtain ⟨rfl, rfl⟩ := h
      exact ⟨[], e, rfl, by simp, by simpa using hf, rfl⟩

theorem afterProblem_none : ∀ {es : List (Entry α ν)}, afterProblem es = none ↔ ∀ e ∈ es, e.fine = true
  | [] => by simp [afterProblem]
  | e :: es => by
    rw [afterProblem]
    split
    · rename_i hf
      rw [Option.map_eq_none_iff, afterProblem_none]
      simp [hf]
    · rename_i hf
      simp [hf]

variable {imp : Cond α → Cond α → Bool} {short : ν → Bool} {simple : List (Cond α × ν)} {negation : Entry α ν → Entry α ν → Bool} {hasElse : Bool}

/-- Reports are about branches, which are numbered from 1. -/
theorem reports_pos {skip : Bool} {ts : List (Test α ν)} {rs : List (Report ν)} (hc : checkIf imp short simple skip ts hasElse = .ok rs) : ∀ r ∈ rs, ∀ n,
    r = .alwaysTrue n ∨ r = .alwaysFalse n ∨ r = .unreachable n ∨ (∃ o ops, r = .redundant n o ops) → 0 < n := by
  have key : ∀ (l : Bool) (ts : List (Test α ν)) (m : Nat) (bs : List (Block α ν)), 0 < m → ∀ r ∈ sameOrder l hasElse ts m bs, ∀ n,
      r = .alwaysTrue n ∨ r = .alwaysFalse n ∨ r = .unreachable n ∨ (∃ o ops, r = .redundant n o ops) → 0 < n := by
    intro l ts
    induction ts with
    | nil =>
      intro m bs hm r hr n hn
      rw [sameOrder] at hr
      split at hr
      · simp only [List.mem_singleton] at hr
        subst hr
        rcases hn with hn | hn | hn | ⟨_, _, hn⟩ <;> cases hn
        exact hm
      · simp at hr
    | cons t ts ih =>
      intro m bs hm r hr n hn
      cases bs with
      | nil =>
        rw [sameOrder] at hr
        rcases List.mem_cons.1 hr with rfl | hr
        · split at hn <;> rcases hn with hn | hn | hn | ⟨_, _, hn⟩ <;> cases hn <;> exact hm
        · exact ih (m + 1) [] (by omega) r hr n hn
      | cons b bs =>
        rw [sameOrder] at hr
        split at hr
        · rcases List.mem_append.1 hr with hr | hr
          · split at hr
            · simp only [List.mem_singleton] at hr
              subst hr
              rcases hn with hn | hn | hn | ⟨_, _, hn⟩ <;> cases hn
              exact hm
            · split at hr
              · simp only [List.mem_singleton] at hr
                subst hr
                rcases hn with hn | hn | hn | ⟨_, _, hn⟩ <;> cases hn
                exact hm
              · simp at hr
          · exact ih (m + 1) bs (by omega) r hr n hn
        · rcases List.mem_cons.1 hr with rfl | hr
          · rcases hn with hn | hn | hn | ⟨_, _, hn⟩ <;> cases hn
            exact hm
          · exact ih (m + 1) (b :: bs) (by omega) r hr n hn
  intro r hr n hn
  unfold checkIf at hc
  split at hc
  · cases hc; simp at hr
  · cases hc; simp at hr
  · split at hc
    · cases hc
    · split at hc
      · cases hc
        split at hr
        · exact key _ _ 1 _ (by omega) r hr n hn
        · simp at hr
      · split at hc
        · cases hc
        · split at hc
          · cases hc
          · split at hc
            · cases hc
            · cases hc
              split at hr
              · simp only [List.mem_singleton] at hr
                subst hr
                rcases hn with hn | hn | hn | ⟨_, _, hn⟩ <;> cases hn
              · split at hr
                · exact key _ _ 1 _ (by omega) r hr n hn
                · simp at hr

theorem skip_no_reorder {ts : List (Test α ν)} {rs : List (Report ν)} (hc : checkIf imp short simple true ts hasElse = .ok rs) :
    ∀ r ∈ rs, ∀ order, r ≠ .reorder order := by
  have key : ∀ (l : Bool) (ts : List (Test α ν)) (m : Nat) (bs : List (Block α ν)), ∀ r ∈ sameOrder l hasElse ts m bs, ∀ order, r ≠ .reorder order := by
    intro l ts
    induction ts with
    | nil =>
      intro m bs r hr order
      rw [sameOrder] at hr
      split at hr
      · simp only [List.mem_singleton] at hr
        rw [hr]
        intro h; cases h
      · simp at hr
    | cons t ts ih =>
      intro m bs r hr order
      cases bs with
      | nil =>
        rw [sameOrder] at hr
        rcases List.mem_cons.1 hr with rfl | hr
        · split <;> (intro h; cases h)
        · exact ih (m + 1) [] r hr order
      | cons b bs =>
        rw [sameOrder] at hr
        split at hr
        · rcases List.mem_append.1 hr with hr | hr
          · split at hr
            · simp only [List.mem_singleton] at hr
              rw [hr]
              intro h; cases h
            · split at hr
              · simp only [List.mem_singleton] at hr
                rw [hr]
                intro h; cases h
              · simp at hr
          · exact ih (m + 1) bs r hr order
        · rcases List.mem_cons.1 hr with rfl | hr
          · intro h; cases h
          · exact ih (m + 1) (b :: bs) r hr order
  intro r hr
  unfold checkIf at hc
  split at hc
  · cases hc; simp at hr
  · cases hc; simp at hr
  · split at hc
    · cases hc
    · simp only [if_true, Except.ok.injEq] at hc
      rw [← hc] at hr
      split at hr
      · exact key _ _ _ _ r hr
      · simp at hr

theorem checkIf_claims {holds : α → Bool} {truth : ν → Bool} {skip : Bool} {es : List (Entry α ν)} {rs : List (Report ν)} (hs : Sound imp holds)
    (hf : ∀ e ∈ es, e.test.Faithful holds truth) (hsimple : ∀ s ∈ simple, s.1.eval holds = truth s.2)
    (hc : checkIf imp short simple skip (es.map (·.test)) hasElse = .ok rs) : ∀ r ∈ rs, Claim truth es hasElse r := by
  have hf' : ∀ t ∈ es.map (·.test), t.Faithful holds truth := by
    intro t ht
    obtain ⟨e, he, rfl⟩ := List.mem_map.1 ht
    exact hf e he
  obtain ⟨h1, h2, h3, h4⟩ := C63 hs hf' hsimple hc
  have hg : ∀ n, Gets truth es n → ∀ t' ∈ (es.map (·.test)).take (n - 1), t'.truth truth = false := by
    intro n hg t ht
    rw [← List.map_take] at ht
    obtain ⟨e, he, rfl⟩ := List.mem_map.1 ht
    exact hg e he
  have hget : ∀ n t, (es.map (·.test))[n - 1]? = some t → ∃ e, es[n - 1]? = some e ∧ e.test = t := by
    intro n t ht
    rw [List.getElem?_map] at ht
    cases he : es[n - 1]? with
    | none => simp [he] at ht
    | some e =>
      simp only [he, Option.map_some, Option.some.injEq] at ht
      exact ⟨e, rfl, ht⟩
  intro r hr
  cases r with
  | reorder order => exact C64 hs hf' hsimple hc hr
  | alwaysTrue n =>
    obtain ⟨t, ht, h⟩ := h1 n hr
    obtain ⟨e, he, rfl⟩ := hget n t ht
    exact ⟨e, he, fun hgets => h (hg n hgets)⟩
  | alwaysFalse n =>
    obtain ⟨t, ht, h⟩ := h2 n hr
    obtain ⟨e, he, rfl⟩ := hget n t ht
    exact ⟨e, he, fun hgets => h (hg n hgets)⟩
  | redundant n isOr ops =>
    obtain ⟨t, ht, h⟩ := h3 n isOr ops hr
    obtain ⟨e, he, rfl⟩ := hget n t ht
    exact ⟨e, he, fun hgets => h (hg n hgets)⟩
  | unreachable n =>
    obtain ⟨hle, t, ht, h⟩ := h4 n hr
    rw [List.length_map] at hle
    refine ⟨hle, fun hgets => ?_⟩
    rw [hg n hgets t ht] at h
    cases h

theorem shift_shift (a b : Nat) (r : Report ν) : (r.shift a).shift b = r.shift (b + a) := by
  cases r <;> simp [Report.shift, Nat.add_comm, Nat.add_left_comm]

theorem checkWhole_none {skip : Bool} {es : List (Entry α ν)} (hlen : 2 ≤ es.length)
    (hn : skip = true ∨ elifInsteadOfElse negation hasElse es 1 = none) (ha : afterProblem es = none) :
    checkWhole imp short simple negation hasElse skip es = checkIf imp short simple skip (es.map (·.test)) hasElse := by
  rw [checkWhole, if_neg (by omega)]
  have : (if skip = true then none else elifInsteadOfElse negation hasElse es 1) = none := by
    rcases hn with rfl | hn
    · rfl
    · rw [hn]; simp
  rw [this]
  simp only
  split
  · rename_i h; rw [ha] at h; cases h
  · rfl

theorem checkWhole_some {skip : Bool} {es rest : List (Entry α ν)} {k : Nat} (hlen : 2 ≤ es.length)
    (hn : skip = true ∨ elifInsteadOfElse negation hasElse es 1 = none) (ha : afterProblem es = some (k, rest)) :
    checkWhole imp short simple negation hasElse skip es =
      (checkWhole imp short simple negation hasElse true rest).map fun rs => rs.map (Report.shift k) := by
  rw [checkWhole, if_neg (by omega)]
  have : (if skip = true then none else elifInsteadOfElse negation hasElse es 1) = none := by
    rcases hn with rfl | hn
    · rfl
    · rw [hn]; simp
  rw [this]
  simp only
  split
  · rename_i k' rest' h
    rw [ha] at h
    cases h
    rfl
  · rename_i h; rw [ha] at h; cases h

theorem fine_iff {e : Entry α ν} : e.fine = true ↔ e.pure = true ∧ e.initialized = true := by
  simp [Entry.fine]

theorem fine_false {e : Entry α ν} : e.fine = false ↔ ¬ (e.pure = true ∧ e.initialized = true) := by
  rw [← fine_iff, Bool.not_eq_true]

/-- Tests of two branches that follow each other are no negations of each other, as far as it is looked at. -/
def NoNegation (negation : Entry α ν → Entry α ν → Bool) (es : List (Entry α ν)) : Prop :=
  ∀ pre a b post, es = pre ++ a :: b :: post → ¬ (a.pure = true ∧ b.pure = true ∧ negation a b = true)

theorem translated : ∀ (skip : Bool) (pre : List (Entry α ν)) (p : Entry α ν) (post : List (Entry α ν)), (skip = true ∨ NoNegation negation (pre ++ p :: post)) →
    p.fine = false → (∀ e ∈ post, e.fine = true) →
    checkWhole imp short simple negation hasElse skip (pre ++ p :: post) =
      if post.length < 2 then .ok []
      else (checkIf imp short simple true (post.map (·.test)) hasElse).map fun rs => rs.map (Report.shift (pre.length + 1)) := by
  suffices ∀ (n : Nat) (skip : Bool) (pre : List (Entry α ν)) (p : Entry α ν) (post : List (Entry α ν)), pre.length ≤ n →
      (skip = true ∨ NoNegation negation (pre ++ p :: post)) →
      p.fine = false → (∀ e ∈ post, e.fine = true) →
      checkWhole imp short simple negation hasElse skip (pre ++ p :: post) =
        if post.length < 2 then .ok []
        else (checkIf imp short simple true (post.map (·.test)) hasElse).map fun rs => rs.map (Report.shift (pre.length + 1)) from
    fun skip pre p post => this pre.length skip pre p post (Nat.le_refl _)
  intro n
  induction n with
  | zero =>
    intro skip pre p post hn hneg hp hpost
    have hnil : pre = [] := List.eq_nil_of_length_eq_zero (by omega)
    subst hnil
    rw [List.nil_append] at hneg ⊢
    by_cases hlen : post.length < 1
    · rw [checkWhole, if_pos (by simp only [List.length_cons]; omega), if_pos (by omega)]
    · have ha : afterProblem (p :: post) = some (1, post) := by rw [afterProblem, if_neg (by simp [hp])]
      rw [checkWhole_some (by simp only [List.length_cons]; omega) (hneg.imp id elifInsteadOfElse_none.2) ha]
      split
      · rename_i h2
        rw [checkWhole, if_pos h2]
        rfl
      · rename_i h2
        rw [checkWhole_none (by omega) (.inl rfl) (afterProblem_none.2 hpost)]
        rfl
  | succ n ih =>
    intro skip pre p post hn hneg hp hpost
    by_cases hlen : (pre ++ p :: post).length < 2
    · rw [checkWhole, if_pos hlen, if_pos (by simp only [List.length_append, List.length_cons] at hlen; omega)]
    · cases ha : afterProblem (pre ++ p :: post) with
      | none =>
        have := afterProblem_none.1 ha p (by simp)
        rw [hp] at this
        cases this
      | some q =>
        obtain ⟨k, rest⟩ := q
        rw [checkWhole_some (by omega) (hneg.imp id elifInsteadOfElse_none.2) ha]
        obtain ⟨pre', p', he, hpre', hp', rfl⟩ := afterProblem_spec ha
        rcases List.append_eq_append_iff.1 he with ⟨as, h1, h2⟩ | ⟨cs, h1, h2⟩
        · cases as with
          | nil =>
            simp only [List.nil_append, List.cons.injEq] at h2
            obtain ⟨rfl, rfl⟩ := h2
            rw [List.append_nil] at h1
            rw [h1]
            split
            · rename_i h2
              rw [checkWhole, if_pos h2]
              rfl
            · rename_i h2
              rw [checkWhole_none (by omega) (.inl rfl) (afterProblem_none.2 hpost)]
          | cons a as =>
            simp only [List.cons_append, List.cons.injEq] at h2
            have := hpre' p (by rw [h1, h2.1]; simp)
            rw [hp] at this
            cases this
        · cases cs with
          | nil =>
            simp only [List.nil_append, List.cons.injEq] at h2
            obtain ⟨rfl, rfl⟩ := h2
            rw [List.append_nil] at h1
            rw [h1]
            split
            · rename_i h2
              rw [checkWhole, if_pos h2]
              rfl
            · rename_i h2
              rw [checkWhole_none (by omega) (.inl rfl) (afterProblem_none.2 hpost)]
          | cons c cs =>
            simp only [List.cons_append, List.cons.injEq] at h2
            obtain ⟨rfl, rfl⟩ := h2
            rw [ih true cs p post (by rw [h1] at hn; simp only [List.length_append, List.length_cons] at hn; omega) (.inl rfl) hp hpost]
            split
            · rfl
            · cases checkIf imp short simple true (post.map (·.test)) hasElse with
              | error x => rfl
              | ok rs =>
                simp only [Except.map, List.map_map, Except.ok.injEq]
                refine List.map_congr_left fun r _ => ?_
                simp only [Function.comp, shift_shift]
                rw [h1]
                congr 1
                simp only [List.length_append, List.length_cons]
                omega

/-- **C138** The branches that are translated are those after the last one with a problem, if there are two at least; nothing else is reported, and the branches are not
reordered. -/
theorem C138_translated (skip : Bool) (pre : List (Entry α ν)) (p : Entry α ν) (post : List (Entry α ν)) (hn : skip = true ∨ NoNegation negation (pre ++ p :: post))
    (hp : ¬ (p.pure = true ∧ p.initialized = true)) (hpost : ∀ e ∈ post, e.pure = true ∧ e.initialized = true) :
    checkWhole imp short simple negation hasElse skip (pre ++ p :: post) =
      if post.length < 2 then .ok []
      else (checkIf imp short simple true (post.map (·.test)) hasElse).map fun rs => rs.map (Report.shift (pre.length + 1)) :=
  translated skip pre p post hn (fine_false.2 hp) fun e he => fine_iff.2 (hpost e he)

/-- **C138** If a pure test follows a pure one of which it is the negation, it is reported as always true, all the branches after it as unreachable, and nothing else is reported;
this is done for the first such tests. -/
theorem C138_negation {es : List (Entry α ν)} (hneg : ¬ NoNegation negation es) :
    ∃ pre a b post, es = pre ++ a :: b :: post ∧ a.pure = true ∧ b.pure = true ∧ negation a b = true ∧ NoNegation negation (pre ++ [a]) ∧
      checkWhole imp short simple negation hasElse false es = .ok (.alwaysTrue (pre.length + 2) ::
        ((List.range post.length).map fun k => .unreachable (pre.length + 3 + k)) ++ if hasElse then [.unreachable (pre.length + 3 + post.length)] else []) := by
  have first : ∀ (es : List (Entry α ν)) (n : Nat) (rs : List (Report ν)), elifInsteadOfElse negation hasElse es n = some rs →
      ∃ pre a b post, es = pre ++ a :: b :: post ∧ a.pure = true ∧ b.pure = true ∧ negation a b = true ∧ NoNegation negation (pre ++ [a]) ∧
        rs = .alwaysTrue (n + pre.length + 1) :: ((List.range post.length).map fun k => .unreachable (n + pre.length + 2 + k)) ++
          if hasElse then [.unreachable (n + pre.length + 2 + post.length)] else [] := by
    intro es
    induction es with
    | nil => intro n rs h; simp [elifInsteadOfElse] at h
    | cons a es ih =>
      intro n rs h
      cases es with
      | nil => simp [elifInsteadOfElse] at h
      | cons b es =>
        rw [elifInsteadOfElse] at h
        split at h
        · rename_i hc
          simp only [Bool.and_eq_true] at hc
          simp only [Option.some.injEq] at h
          refine ⟨[], a, b, es, rfl, hc.1.1, hc.1.2, hc.2, ?_, by rw [← h]; rfl⟩
          intro pre' a' b' post' he
          have := congrArg List.length he
          simp only [List.nil_append, List.length_cons, List.length_nil, List.length_append] at this
          omega
        · rename_i hc
          obtain ⟨pre, a', b', post, he, h1, h2, h3, h4, h5⟩ := ih (n + 1) rs h
          refine ⟨a :: pre, a', b', post, by rw [he]; rfl, h1, h2, h3, ?_, ?_⟩
          · intro pre'' a'' b'' post'' he''
            cases pre'' with
            | nil =>
              simp only [List.nil_append, List.cons_append, List.cons.injEq] at he''
              obtain ⟨rfl, he''⟩ := he''
              have hb : b = b'' := by
                cases pre with
                | nil =>
                  simp only [List.nil_append, List.cons.injEq] at he he''
                  rw [he.1, he''.1]
                | cons q pre =>
                  simp only [List.cons_append, List.cons.injEq] at he he''
                  rw [he.1, he''.1]
              rintro ⟨g1, g2, g3⟩
              rw [← hb] at g2 g3
              exact hc (by rw [g1, g2, g3]; rfl)
            | cons q pre'' =>
              simp only [List.cons_append, List.cons.injEq] at he''
              exact h4 pre'' a'' b'' post'' he''.2
          · rw [h5, List.length_cons, show n + 1 + pre.length = n + (pre.length + 1) by omega]
  cases he : elifInsteadOfElse negation hasElse es 1 with
  | none => exact absurd (elifInsteadOfElse_none.1 he) hneg
  | some rs =>
    obtain ⟨pre, a, b, post, h1, h2, h3, h4, h5, h6⟩ := first es 1 rs he
    refine ⟨pre, a, b, post, h1, h2, h3, h4, h5, ?_⟩
    rw [checkWhole, if_neg (by rw [h1]; simp only [List.length_append, List.length_cons]; omega)]
    simp only [Bool.false_eq_true, if_false, he]
    rw [h6, show 1 + pre.length + 1 = pre.length + 2 by omega, show 1 + pre.length + 2 = pre.length + 3 by omega]

/-- **C138** If all tests can be translated and none is the negation of the one before, the whole statement is translated. -/
theorem C138_all {es : List (Entry α ν)} (hlen : 2 ≤ es.length) (hn : NoNegation negation es)
    (hf : ∀ e ∈ es, e.pure = true ∧ e.initialized = true) :
    checkWhole imp short simple negation hasElse false es = checkIf imp short simple false (es.map (·.test)) hasElse :=
  checkWhole_none hlen (.inr (elifInsteadOfElse_none.2 hn)) (afterProblem_none.2 fun e he => fine_iff.2 (hf e he))

/-- **C138** What is reported is right for the whole statement, also if tests before have effects: just translations of tests without a problem have to be right, and tests
that are found to be negations have to be. -/
theorem C138_right {holds : α → Bool} {truth : ν → Bool} {es : List (Entry α ν)} {rs : List (Report ν)} (hs : Sound imp holds)
    (hf : ∀ e ∈ es, e.pure = true → e.initialized = true → e.test.Faithful holds truth) (hsimple : ∀ s ∈ simple, s.1.eval holds = truth s.2)
    (hneg : ∀ a ∈ es, ∀ b ∈ es, a.pure = true → b.pure = true → negation a b = true → a.test.truth truth = !b.test.truth truth)
    (hc : checkWhole imp short simple negation hasElse false es = .ok rs) : ∀ r ∈ rs, Claim truth es hasElse r := by
  by_cases hlen : es.length < 2
  · rw [checkWhole, if_pos hlen] at hc
    cases hc
    simp
  · cases he : elifInsteadOfElse negation hasElse es 1 with
    | some rs' =>
      rw [checkWhole, if_neg hlen] at hc
      simp only [Bool.false_eq_true, if_false, he, Except.ok.injEq] at hc
      obtain ⟨pre, a, b, post, h1, h2, h3, h4, h6⟩ := elifInsteadOfElse_spec he
      rw [← hc, h6, h1]
      exact negation_claims (hneg a (by rw [h1]; simp) b (by rw [h1]; simp) h2 h3 h4)
    | none =>
      by_cases hall : ∀ e ∈ es, e.fine = true
      · rw [checkWhole_none (by omega) (.inr he) (afterProblem_none.2 hall)] at hc
        exact checkIf_claims hs (fun e he => hf e he (fine_iff.1 (hall e he)).1 (fine_iff.1 (hall e he)).2) hsimple hc
      · have hlast : ∀ l : List (Entry α ν), (¬ ∀ e ∈ l, e.fine = true) → ∃ pre p post, l = pre ++ p :: post ∧ p.fine = false ∧ ∀ e ∈ post, e.fine = true := by
          intro l
          induction l with
          | nil => intro h; exact absurd (by simp) h
          | cons e l ih =>
            intro h
            by_cases hl : ∀ e ∈ l, e.fine = true
            · refine ⟨[], e, l, rfl, ?_, hl⟩
              cases hfe : e.fine with
              | false => rfl
              | true =>
                refine absurd ?_ h
                intro e' he'
                rcases List.mem_cons.1 he' with rfl | he'
                · exact hfe
                · exact hl e' he'
            · obtain ⟨pre, p, post, h1, h2, h3⟩ := ih hl
              exact ⟨e :: pre, p, post, by rw [h1]; rfl, h2, h3⟩
        obtain ⟨pre, p, post, h1, h2, h3⟩ := hlast es hall
        rw [h1, translated false pre p post (.inr (by rw [← h1]; exact elifInsteadOfElse_none.1 he)) h2 h3] at hc
        split at hc
        · cases hc
          simp
        · cases hci : checkIf imp short simple true (post.map (·.test)) hasElse with
          | error x => rw [hci] at hc; cases hc
          | ok rs' =>
            rw [hci] at hc
            simp only [Except.map, Except.ok.injEq] at hc
            intro r hr
            rw [← hc] at hr
            obtain ⟨r', hr', rfl⟩ := List.mem_map.1 hr
            have hclaim := checkIf_claims hs (fun e he => hf e (by rw [h1]; simp [he]) (fine_iff.1 (h3 e he)).1 (fine_iff.1 (h3 e he)).2) hsimple hci r' hr'
            have := claim_shift (pre ++ [p]) hclaim (skip_no_reorder hci r' hr') (reports_pos hci r' hr')
            rw [List.length_append] at this
            rw [h1]
            simpa using this

/-- **C138** If the test of some branch has a problem, no exception is raised. -/
theorem C138_no_exception {es : List (Entry α ν)} (h : ∃ e ∈ es, ¬ (e.pure = true ∧ e.initialized = true)) :
    ∃ rs, checkWhole imp short simple negation hasElse false es = .ok rs := by
  replace h : ∃ e ∈ es, e.fine = false := h.imp fun e he => ⟨he.1, fine_false.2 he.2⟩
  by_cases hn : NoNegation negation es
  · have hlast : ∀ l : List (Entry α ν), (∃ e ∈ l, e.fine = false) → ∃ pre p post, l = pre ++ p :: post ∧ p.fine = false ∧ ∀ e ∈ post, e.fine = true := by
      intro l
      induction l with
      | nil => rintro ⟨e, he, _⟩; simp at he
      | cons e l ih =>
        rintro ⟨e', he', hf'⟩
        by_cases hl : ∃ e ∈ l, e.fine = false
        · obtain ⟨pre, p, post, h1, h2, h3⟩ := ih hl
          exact ⟨e :: pre, p, post, by rw [h1]; rfl, h2, h3⟩
        · rcases List.mem_cons.1 he' with rfl | he'
          · refine ⟨[], e', l, rfl, hf', ?_⟩
            intro e he
            cases hfe : e.fine with
            | true => rfl
            | false => exact absurd ⟨e, he, hfe⟩ hl
          · exact absurd ⟨e', he', hf'⟩ hl
    obtain ⟨pre, p, post, h1, h2, h3⟩ := hlast es h
    rw [h1] at hn ⊢
    rw [translated false pre p post (.inr hn) h2 h3]
    split
    · exact ⟨_, rfl⟩
    · rename_i hl
      obtain ⟨rs, hrs⟩ := C65_partial (ts := post.map (·.test)) imp short simple hasElse (by
        intro h
        rw [List.map_eq_nil_iff] at h
        rw [h] at hl
        simp at hl)
      rw [hrs]
      exact ⟨_, rfl⟩
  · obtain ⟨_, _, _, _, _, _, _, _, _, h⟩ := C138_negation (imp := imp) (short := short) (simple := simple) (hasElse := hasElse) hn
    exact ⟨_, h⟩

end

/-! ### Examples -/

/-- A test that is a call of something unknown, and tests that are translated. -/
def unknown : Entry Atom Atom := ⟨false, false, .single .large none⟩

def known (a : Atom) : Entry Atom Atom := ⟨true, true, single a⟩

/-- `is_negation` for `x == 0` and `x != 0`. -/
def opposite (a b : Entry Atom Atom) : Bool :=
  match a.test, b.test with
  | .single .zero _, .single .notZero _ => true
  | .single .notZero _, .single .zero _ => true
  | _, _ => false

/-- `if x < 5: … elif f(): … elif x == 0: … elif x < 5: … elif x == 0: … else: …`: just the branches after the call are translated, and reported by their numbers. -/
example : checkWhole solve (fun _ => true) [] opposite true false [known .small, unknown, known .zero, known .small, known .zero] = .ok [.alwaysFalse 5] := by
  refine (C138_translated false [known .small] unknown [known .zero, known .small, known .zero] (.inr ?_) (by decide) ?_).trans rfl
  · refine (elifInsteadOfElse_none (hasElse := true) (n := 1)).1 rfl
  · intro e he
    simp only [List.mem_cons, List.not_mem_nil, or_false] at he
    rcases he with rfl | rfl | rfl <;> exact ⟨rfl, rfl⟩

/-- `if f(): … elif x == 0: … elif x != 0: … elif x < 5: … else: …` -/
example : checkWhole solve (fun _ => true) [] opposite true false [unknown, known .zero, known .notZero, known .small] =
    .ok [.alwaysTrue 3, .unreachable 4, .unreachable 5] := by
  rw [checkWhole, if_neg (by decide)]
  rfl

/-- The hypotheses of `C138_right` hold of it, whatever `x` is. -/
example (x : Int) : ∀ r ∈ [Report.alwaysTrue 3, .unreachable 4, .unreachable 5],
    Claim (Atom.holds x) [unknown, known .zero, known .notZero, known .small] true r := by
  refine C138_right (imp := solve) (short := fun _ => true) (simple := []) (negation := opposite) (holds := Atom.holds x) (solve_sound x) ?_ (by simp) ?_ ?_
  · intro e he hf _
    simp only [List.mem_cons, List.not_mem_nil, or_false] at he
    rcases he with rfl | rfl | rfl | rfl
    · cases hf
    all_goals exact atom_faithful x _
  · intro a ha b hb _ _ hn
    simp only [List.mem_cons, List.not_mem_nil, or_false] at ha hb
    rcases ha with rfl | rfl | rfl | rfl <;> rcases hb with rfl | rfl | rfl | rfl <;> first | cases hn; done | simp [known, single, Test.truth, Atom.holds]
  · rw [checkWhole, if_neg (by decide)]
    rfl

end Verif.Elif
