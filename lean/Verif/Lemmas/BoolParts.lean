import Verif.Model.BoolParts
import Verif.Lemmas.BoolInts
import Verif.Props.Z3

/-!
What is left of operands amounts to all of them.
-/

namespace Verif.Py.BoolParts

open Verif.Py.BoolOps (conn)

section
variable {zero : Int → Int} {σ : Expr → Int}

variable (zero σ) in
/-- A term that has a truth value. -/
def IsBool (t : Term) : Prop := ∃ b, t.eval zero σ = some (.bool b)

variable (zero σ) in
/-- A term is true. -/
def holdsT (t : Term) : Bool := decide (t.eval zero σ = some (.bool true))

theorem holdsT_eq {t : Term} {b : Bool} (h : t.eval zero σ = some (.bool b)) : holdsT zero σ t = b := by
  cases b <;> simp [holdsT, h]

theorem isBool_eval {t : Term} (h : IsBool zero σ t) : t.eval zero σ = some (.bool (holdsT zero σ t)) := by
  obtain ⟨b, hb⟩ := h
  rw [holdsT_eq hb, hb]

theorem eval_not {t : Term} (h : IsBool zero σ t) : (Term.not t).eval zero σ = some (.bool !holdsT zero σ t) := by
  simp [Term.eval, isBool_eval h, TV.bool?]

theorem evalAll_bools : ∀ {ts : List Term}, (∀ t ∈ ts, IsBool zero σ t) → Term.evalAll zero σ ts = some (ts.map (holdsT zero σ))
  | [], _ => by simp [Term.evalAll]
  | t :: ts, h => by
    simp [Term.evalAll, isBool_eval (h t (by simp)), TV.bool?, evalAll_bools (ts := ts) fun u hu => h u (by simp [hu])]

theorem eval_and {ts : List Term} (h : ∀ t ∈ ts, IsBool zero σ t) : (Term.and ts).eval zero σ = some (.bool (conn false (ts.map (holdsT zero σ)))) := by
  simp [Term.eval, evalAll_bools h, conn]

theorem eval_or {ts : List Term} (h : ∀ t ∈ ts, IsBool zero σ t) : (Term.or ts).eval zero σ = some (.bool (conn true (ts.map (holdsT zero σ)))) := by
  simp [Term.eval, evalAll_bools h, conn]

variable {unsat : Term → Bool} {len : Expr → Nat}

theorem unsat_false (hu : ∀ t, unsat t = true → Unsat t) {t : Term} (h : unsat t = true) : holdsT zero σ t = false := by
  simp only [holdsT, decide_eq_false_iff_not]
  exact hu t h zero σ

theorem unsat_not (hu : ∀ t, unsat t = true → Unsat t) {t : Term} (hb : IsBool zero σ t) (h : unsat (.not t) = true) : holdsT zero σ t = true := by
  have := unsat_false (zero := zero) (σ := σ) hu h
  rw [holdsT_eq (eval_not hb)] at this
  simpa using this

theorem implies_sound (hu : ∀ t, unsat t = true → Unsat t) {a b : Term} (ha : IsBool zero σ a) (hb : IsBool zero σ b)
    (h : implies unsat a b = true) (hv : holdsT zero σ a = true) : holdsT zero σ b = true := by
  have := unsat_false (zero := zero) (σ := σ) hu h
  rw [holdsT_eq (eval_and (by
    intro t ht
    rcases List.mem_cons.1 ht with rfl | ht
    · exact ha
    · rw [List.mem_singleton] at ht; subst ht; exact ⟨_, eval_not hb⟩))] at this
  simpa [conn, holdsT_eq (eval_not hb), hv] using this

/-! ### The loops -/

variable (zero σ) in
/-- The truth values of operands. -/
def vals (ps : List Part) : List Bool := ps.map fun p => holdsT zero σ p.term

/-- An operand and its translation. -/
def Part.key (p : Part) : Expr × Term := (p.node, p.term)

theorem kept_cons (p : Part) (ps : List Part) : kept (p :: ps) = if p.removed then kept ps else p :: kept ps := by
  cases h : p.removed <;> simp [kept, h]

theorem kept_append (ps qs : List Part) : kept (ps ++ qs) = kept ps ++ kept qs := by simp [kept]

theorem constantParts_key (isOr : Bool) (ps : List Part) : (constantParts unsat isOr ps).map Part.key = ps.map Part.key := by
  simp [constantParts, Part.key, Function.comp_def]

theorem conn_cons (isOr b : Bool) (bs : List Bool) : conn isOr (b :: bs) = if isOr then b || conn isOr bs else b && conn isOr bs := by
  cases isOr <;> simp [conn]

theorem conn_append (isOr : Bool) (bs cs : List Bool) : conn isOr (bs ++ cs) = if isOr then conn isOr bs || conn isOr cs else conn isOr bs && conn isOr cs := by
  cases isOr <;> simp [conn]

theorem constantParts_sound (hu : ∀ t, unsat t = true → Unsat t) {isOr : Bool} : ∀ {ps : List Part}, (∀ p ∈ ps, IsBool zero σ p.term) →
    conn isOr (vals zero σ (kept (constantParts unsat isOr ps))) = conn isOr (vals zero σ ps)
  | [], _ => rfl
  | p :: ps, hb => by
    have ih := constantParts_sound hu (isOr := isOr) (ps := ps) fun q hq => hb q (by simp [hq])
    have e : constantParts unsat isOr (p :: ps) = _ :: constantParts unsat isOr ps := rfl
    rw [e, kept_cons]
    simp only
    split
    · rename_i h
      rw [ih, show vals zero σ (p :: ps) = holdsT zero σ p.term :: vals zero σ ps from rfl, conn_cons]
      cases isOr
      · simp only [Bool.false_and, Bool.not_false, Bool.true_and, Bool.false_or] at h
        simp [unsat_not hu (hb p (by simp)) h, vals]
      · simp only [Bool.true_and, Bool.not_true, Bool.false_and, Bool.or_false] at h
        simp [unsat_false hu h, vals]
    · simp only [vals, List.map_cons, conn_cons]
      simp only [vals] at ih
      rw [ih]

theorem compareWith_key (isOr : Bool) (cur : Part) : ∀ ps : List Part, (compareWith unsat len isOr cur ps).2.map Part.key = ps.map Part.key
  | [] => rfl
  | p :: ps => by
    have := compareWith_key isOr cur ps
    unfold compareWith
    simp only
    split
    · simp [this]
    · split
      · rfl
      · split
        · simp [this]; rfl
        · simp [this]

theorem isBool_key {ps qs : List Part} (h : qs.map Part.key = ps.map Part.key) (hb : ∀ p ∈ ps, IsBool zero σ p.term) :
    ∀ q ∈ qs, IsBool zero σ q.term := by
  intro q hq
  have : q.key ∈ ps.map Part.key := h ▸ List.mem_map_of_mem hq
  obtain ⟨p, hp, he⟩ := List.mem_map.1 this
  have : p.term = q.term := congrArg Prod.snd he
  rw [← this]
  exact hb p hp

theorem compareWith_sound (hu : ∀ t, unsat t = true → Unsat t) {isOr : Bool} {cur : Part} (hc : IsBool zero σ cur.term) :
    ∀ {ps : List Part}, (∀ p ∈ ps, IsBool zero σ p.term) →
    conn isOr (if (compareWith unsat len isOr cur ps).1 then vals zero σ (kept (compareWith unsat len isOr cur ps).2)
      else holdsT zero σ cur.term :: vals zero σ (kept (compareWith unsat len isOr cur ps).2)) =
    conn isOr (holdsT zero σ cur.term :: vals zero σ (kept ps))
  | [], _ => rfl
  | p :: ps, hb => by
    have ih := compareWith_sound hu (isOr := isOr) hc (ps := ps) fun q hq => hb q (by simp [hq])
    have hp := hb p (by simp)
    unfold compareWith
    simp only
    split
    · rename_i h
      simp only [Prod.map, id_eq, kept_cons, h, if_true]
      exact ih
    · rename_i h
      simp only [Bool.not_eq_true] at h
      have hf : implies unsat cur.term p.term = true → holdsT zero σ cur.term = true → holdsT zero σ p.term = true := implies_sound hu hc hp
      have hr : implies unsat p.term cur.term = true → holdsT zero σ p.term = true → holdsT zero σ cur.term = true := implies_sound hu hp hc
      split
      · rename_i hs
        simp only [if_true, kept_cons, h, Bool.false_eq_true, if_false, vals, List.map_cons, conn_cons]
        simp only [shouldRemove, Bool.or_eq_true, Bool.and_eq_true, Bool.not_eq_true'] at hs
        cases isOr <;> cases h1 : holdsT zero σ cur.term <;> cases h2 : holdsT zero σ p.term <;> simp_all
      · rename_i hs
        simp only [shouldRemove, Bool.or_eq_true, Bool.and_eq_true, Bool.not_eq_true', not_or] at hs
        split
        · rename_i ho
          simp only [Prod.map, id_eq, kept_cons, if_true]
          rw [ih, h]
          simp only [Bool.false_eq_true, if_false, vals, List.map_cons, conn_cons]
          simp only [Bool.or_eq_true] at ho
          cases isOr <;> cases h1 : holdsT zero σ cur.term <;> cases h2 : holdsT zero σ p.term <;> simp_all
        · simp only [Prod.map, id_eq, kept_cons, h, Bool.false_eq_true, if_false, vals, List.map_cons, conn_cons]
          simp only [vals, conn_cons] at ih
          split
          · rename_i hr1
            rw [if_pos hr1] at ih
            simp only [conn_cons]
            rw [ih]
            cases isOr <;> simp [Bool.and_left_comm, Bool.or_left_comm]
          · rename_i hr1
            rw [if_neg hr1] at ih
            simp only [conn_cons] at ih ⊢
            cases isOr
            · simp only [Bool.false_eq_true, if_false] at ih ⊢
              rw [Bool.and_left_comm, ih, Bool.and_left_comm]
            · simp only [if_true] at ih ⊢
              rw [Bool.or_left_comm, ih, Bool.or_left_comm]

theorem comparePairs_key (isOr : Bool) : ∀ (n : Nat) (ps : List Part), ps.length = n → (comparePairs unsat len isOr ps).map Part.key = ps.map Part.key
  | _, [], _ => by rw [comparePairs]
  | n + 1, p :: ps, h => by
    rw [comparePairs]
    simp only [List.length_cons, Nat.add_right_cancel_iff] at h
    split
    · rw [List.map_cons, comparePairs_key isOr n ps h, List.map_cons]
    · rw [List.map_cons, comparePairs_key isOr n _ (by rw [compareWith_length, h]), compareWith_key, List.map_cons]
      rfl

theorem comparePairs_sound (hu : ∀ t, unsat t = true → Unsat t) {isOr : Bool} : ∀ (n : Nat) {ps : List Part}, ps.length = n →
    (∀ p ∈ ps, IsBool zero σ p.term) → conn isOr (vals zero σ (kept (comparePairs unsat len isOr ps))) = conn isOr (vals zero σ (kept ps))
  | _, [], _, _ => by rw [comparePairs]
  | n + 1, p :: ps, h, hb => by
    rw [comparePairs]
    simp only [List.length_cons, Nat.add_right_cancel_iff] at h
    have hps : ∀ q ∈ ps, IsBool zero σ q.term := fun q hq => hb q (by simp [hq])
    split
    · rename_i hr
      rw [kept_cons, if_pos hr, kept_cons, if_pos hr]
      exact comparePairs_sound hu n h hps
    · rename_i hr
      have h1 := compareWith_sound (len := len) hu (isOr := isOr) (hb p (by simp)) hps
      have h2 := comparePairs_sound hu (isOr := isOr) n (ps := (compareWith unsat len isOr p ps).2) (by rw [compareWith_length, h])
        (isBool_key (compareWith_key isOr p ps) hps)
      rw [kept_cons, kept_cons, if_neg hr]
      simp only
      split
      · rename_i hc
        rw [if_pos hc] at h1
        rw [h2, h1]; rfl
      · rename_i hc
        rw [if_neg hc] at h1
        simp only [vals, List.map_cons] at h1 h2 ⊢
        rw [conn_cons, h2, ← conn_cons, h1]

theorem further_key (isOr : Bool) : ∀ (ps before : List Part), (further unsat isOr before ps).map Part.key = (before ++ ps).map Part.key
  | [], before => by simp [further]
  | p :: ps, before => by
    unfold further
    split
    · rw [further_key isOr ps]; simp
    · simp only
      split
      · rfl
      · rw [further_key isOr ps]; simp [Part.key]

theorem conn_middle (isOr : Bool) (as bs : List Bool) (b : Bool) : conn isOr (as ++ b :: bs) = conn isOr (b :: (as ++ bs)) := by
  cases isOr <;> simp [conn, Bool.and_left_comm, Bool.or_left_comm]

theorem further_sound (hu : ∀ t, unsat t = true → Unsat t) {isOr : Bool} : ∀ {ps before : List Part}, (∀ p ∈ before ++ ps, IsBool zero σ p.term) →
    conn isOr (vals zero σ (kept (further unsat isOr before ps))) = conn isOr (vals zero σ (kept (before ++ ps)))
  | [], before, _ => by simp [further]
  | p :: ps, before, hb => by
    unfold further
    split
    · rw [further_sound hu (by simpa using hb)]; simp
    · rename_i hr
      simp only
      split
      · rfl
      · have hb' : ∀ r, ∀ q ∈ (before ++ [{ p with removed := r }]) ++ ps, IsBool zero σ q.term := by
          intro r
          refine isBool_key (ps := before ++ p :: ps) ?_ hb
          simp [Part.key]
        rw [further_sound hu (hb' _)]
        rw [List.append_assoc, List.singleton_append]
        generalize hg : isRedundant unsat ((kept (before ++ ps)).map Part.term) p.term isOr = g
        rw [kept_append, kept_cons, kept_append, kept_cons, if_neg hr]
        simp only
        split
        · rename_i hred
          subst hg
          have hothers : ∀ t ∈ (kept (before ++ ps)).map Part.term, IsBool zero σ t := by
            intro t ht
            obtain ⟨q, hq, rfl⟩ := List.mem_map.1 ht
            have := (List.mem_filter.1 hq).1
            exact hb q (by simp only [List.mem_append, List.mem_cons] at this ⊢; rcases this with h | h <;> simp [h])
          have hp := hb p (by simp)
          have e : vals zero σ (kept before ++ kept ps) = ((kept (before ++ ps)).map Part.term).map (holdsT zero σ) := by
            simp [vals, kept_append, Function.comp_def]
          rw [show vals zero σ (kept before ++ p :: kept ps) = vals zero σ (kept before) ++ holdsT zero σ p.term :: vals zero σ (kept ps) by simp [vals],
            conn_middle, conn_cons, show vals zero σ (kept before) ++ vals zero σ (kept ps) = vals zero σ (kept before ++ kept ps) by simp [vals], e]
          simp only [isRedundant, Bool.or_eq_true, Bool.and_eq_true, Bool.not_eq_true'] at hred
          rcases hred with ⟨rfl, h⟩ | ⟨rfl, h⟩
          · have := implies_sound hu hp ⟨_, eval_or hothers⟩ h
            rw [holdsT_eq (eval_or hothers)] at this
            cases h1 : holdsT zero σ p.term <;> simp_all
          · have := implies_sound hu ⟨_, eval_and hothers⟩ hp h
            rw [holdsT_eq (eval_and hothers)] at this
            cases h1 : holdsT zero σ p.term <;> simp_all
        · simp [vals]

theorem redundantParts_key (isOr : Bool) (ps : List Part) : (redundantParts unsat len isOr ps).map Part.key = ps.map Part.key := by
  rw [redundantParts, further_key, List.nil_append, comparePairs_key isOr _ _ rfl, constantParts_key]

theorem redundantParts_sound (hu : ∀ t, unsat t = true → Unsat t) {isOr : Bool} {ps : List Part} (hb : ∀ p ∈ ps, IsBool zero σ p.term) :
    conn isOr (vals zero σ (kept (redundantParts unsat len isOr ps))) = conn isOr (vals zero σ ps) := by
  have h1 := isBool_key (constantParts_key (unsat := unsat) isOr ps) hb
  have h2 := isBool_key (comparePairs_key (unsat := unsat) (len := len) isOr _ _ rfl) h1
  rw [redundantParts, further_sound hu (by simpa using h2), List.nil_append, comparePairs_sound hu _ rfl h1, constantParts_sound hu hb]

end

/-! ### Nothing else can be left out -/

section
variable {unsat : Term → Bool} {len : Expr → Nat}

/-- For some values of the variables, the operand decides and no other one does. -/
def Decides (isOr : Bool) (p : Part) (others : List Part) : Prop :=
  ∃ zero σ, holdsT zero σ p.term = isOr ∧ ∀ q ∈ others, holdsT zero σ q.term = !isOr

theorem decides_of (hu : ∀ t, Unsat t → unsat t = true) {isOr : Bool} {p : Part} {others : List Part}
    (hp : ∀ zero σ, IsBool zero σ p.term) (ho : ∀ zero σ, ∀ q ∈ others, IsBool zero σ q.term)
    (h : isRedundant unsat (others.map Part.term) p.term isOr = false) : Decides isOr p others := by
  have ho' : ∀ zero σ, ∀ t ∈ others.map Part.term, IsBool zero σ t := by
    intro zero σ t ht
    obtain ⟨q, hq, rfl⟩ := List.mem_map.1 ht
    exact ho zero σ q hq
  have sat : ∀ {a b}, implies unsat a b = false → (∀ zero σ, IsBool zero σ a) → (∀ zero σ, IsBool zero σ b) →
      ∃ zero σ, holdsT zero σ a = true ∧ holdsT zero σ b = false := by
    intro a b hi ha hb
    by_contra hc
    refine absurd (hu (.and [a, .not b]) fun zero σ he => hc ⟨zero, σ, ?_⟩) (by simpa [implies] using hi)
    rw [eval_and (by
      intro t ht
      rcases List.mem_cons.1 ht with rfl | ht
      · exact ha _ _
      · rw [List.mem_singleton] at ht; subst ht; exact ⟨_, eval_not (hb _ _)⟩)] at he
    simpa [conn, holdsT_eq (eval_not (hb zero σ))] using he
  cases isOr
  · simp only [isRedundant, Bool.false_and, Bool.not_false, Bool.true_and, Bool.false_or] at h
    obtain ⟨zero, σ, h1, h2⟩ := sat h (fun zero σ => ⟨_, eval_and (ho' zero σ)⟩) hp
    rw [holdsT_eq (eval_and (ho' zero σ))] at h1
    simp only [conn, Bool.false_eq_true, if_false, List.all_map, List.all_eq_true, Function.comp] at h1
    exact ⟨zero, σ, h2, h1⟩
  · simp only [isRedundant, Bool.true_and, Bool.not_true, Bool.false_and, Bool.or_false] at h
    obtain ⟨zero, σ, h1, h2⟩ := sat h hp (fun zero σ => ⟨_, eval_or (ho' zero σ)⟩)
    rw [holdsT_eq (eval_or (ho' zero σ))] at h2
    simp only [conn, if_true, List.any_map, List.any_eq_false, Function.comp, id, Bool.not_eq_true] at h2
    exact ⟨zero, σ, h1, h2⟩

theorem further_needed (hu : ∀ t, Unsat t → unsat t = true) {isOr : Bool} : ∀ {ps before : List Part},
    (∀ zero σ, ∀ p ∈ before ++ ps, IsBool zero σ p.term) →
    (∀ l x r, before = l ++ x :: r → x.removed = false → kept (l ++ r ++ ps) ≠ [] → Decides isOr x (kept (l ++ r ++ ps))) →
    ∀ l x r, further unsat isOr before ps = l ++ x :: r → x.removed = false → kept (l ++ r) ≠ [] → Decides isOr x (kept (l ++ r))
  | [], before, _, hd => by
    intro l x r h
    rw [further] at h
    simpa using hd l x r h
  | p :: ps, before, hb, hd => by
    unfold further
    have hstep : ∀ q : Part, q.key = p.key → (q.removed = false → p.removed = false) →
        (q.removed = false → kept (before ++ ps) ≠ [] → Decides isOr q (kept (before ++ ps))) →
        ∀ l x r, further unsat isOr (before ++ [q]) ps = l ++ x :: r → x.removed = false → kept (l ++ r) ≠ [] → Decides isOr x (kept (l ++ r)) := by
      intro q hq hqr hqd
      refine further_needed hu (fun zero σ => isBool_key (by simp [hq]) (hb zero σ)) ?_
      intro l x r he hx hne
      rcases List.append_eq_append_iff.1 he with ⟨m, h1, h2⟩ | ⟨m, h1, h2⟩
      · cases m with
        | nil =>
          cases h2
          rw [List.append_nil] at h1
          subst h1
          rw [List.append_nil] at hne ⊢
          exact hqd hx hne
        | cons a m => simp at h2
      · cases m with
        | nil =>
          cases h2
          rw [List.append_nil] at h1
          subst h1
          rw [List.append_nil] at hne ⊢
          exact hqd hx hne
        | cons a m =>
          cases h2
          have hsub : ∀ o ∈ kept (l ++ (m ++ [q]) ++ ps), o ∈ kept (l ++ m ++ ps) ∨ (o = q ∧ q.removed = false) := by
            intro o ho
            obtain ⟨ho1, ho2⟩ := List.mem_filter.1 ho
            simp only [List.mem_append, List.mem_singleton] at ho1
            rcases ho1 with (h | h | h) | h
            · exact .inl (List.mem_filter.2 ⟨by simp [h], ho2⟩)
            · exact .inl (List.mem_filter.2 ⟨by simp [h], ho2⟩)
            · exact .inr ⟨h, by subst h; simpa using ho2⟩
            · exact .inl (List.mem_filter.2 ⟨by simp [h], ho2⟩)
          have hne' : kept (l ++ m ++ p :: ps) ≠ [] := by
            obtain ⟨o, ho⟩ := List.exists_mem_of_ne_nil _ hne
            rcases hsub o ho with h | ⟨rfl, h⟩
            · obtain ⟨h1, h2⟩ := List.mem_filter.1 h
              refine List.ne_nil_of_mem (a := o) (List.mem_filter.2 ⟨?_, h2⟩)
              simp only [List.mem_append, List.mem_cons] at h1 ⊢
              rcases h1 with h | h <;> simp [h]
            · exact List.ne_nil_of_mem (a := p) (List.mem_filter.2 ⟨by simp, by simp [hqr h]⟩)
          obtain ⟨zero, σ, d1, d2⟩ := hd l x m h1 hx hne'
          refine ⟨zero, σ, d1, fun o ho => ?_⟩
          rcases hsub o ho with h | ⟨rfl, h⟩
          · obtain ⟨h1, h2⟩ := List.mem_filter.1 h
            refine d2 o (List.mem_filter.2 ⟨?_, h2⟩)
            simp only [List.mem_append, List.mem_cons] at h1 ⊢
            rcases h1 with h | h <;> simp [h]
          · have := d2 p (List.mem_filter.2 ⟨by simp, by simp [hqr h]⟩)
            rwa [show o.term = p.term from congrArg Prod.snd hq]
    split
    · rename_i hr
      exact hstep p rfl id (fun h => by rw [hr] at h; cases h)
    · rename_i hr
      simp only
      split
      · rename_i hempty
        intro l x r he hx hne
        exfalso
        have hk : kept (before ++ ps) = [] := by simpa using hempty
        simp only [kept, List.filter_eq_nil_iff, List.mem_append] at hk
        obtain ⟨o, ho⟩ := List.exists_mem_of_ne_nil _ hne
        obtain ⟨ho1, ho2⟩ := List.mem_filter.1 ho
        have hlen : kept (before ++ p :: ps) = [p] := by
          rw [kept_append, kept_cons, if_neg hr]
          have e1 : kept before = [] := by simp only [kept, List.filter_eq_nil_iff]; exact fun a ha => hk a (.inl ha)
          have e2 : kept ps = [] := by simp only [kept, List.filter_eq_nil_iff]; exact fun a ha => hk a (.inr ha)
          rw [e1, e2]; rfl
        rw [he, kept_append, kept_cons, hx] at hlen
        have h1 := congrArg List.length hlen
        have h2 := List.length_pos_of_mem ho
        rw [kept_append] at h2
        simp only [Bool.false_eq_true, if_false, List.length_append, List.length_cons, List.length_nil] at h1 h2
        omega
      · rename_i hne
        refine hstep _ rfl (fun h => by simpa using hr) (fun h _ => ?_)
        have hin : ∀ zero σ, ∀ q ∈ kept (before ++ ps), IsBool zero σ q.term := by
          intro zero σ q hq
          have := (List.mem_filter.1 hq).1
          exact hb zero σ q (by simp only [List.mem_append, List.mem_cons] at this ⊢; rcases this with h | h <;> simp [h])
        exact decides_of hu (p := { p with removed := _ }) (fun zero σ => hb zero σ p (by simp)) hin h

theorem redundantParts_needed (hu : ∀ t, Unsat t → unsat t = true) {isOr : Bool} {ps : List Part}
    (hb : ∀ zero σ, ∀ p ∈ ps, IsBool zero σ p.term) {l : List Part} {x : Part} {r : List Part}
    (h : kept (redundantParts unsat len isOr ps) = l ++ x :: r) (hne : l ++ r ≠ []) : Decides isOr x (l ++ r) := by
  have h1 : ∀ zero σ, _ := fun zero σ => isBool_key (constantParts_key (unsat := unsat) isOr ps) (hb zero σ)
  have h2 : ∀ zero σ, _ := fun zero σ => isBool_key (comparePairs_key (unsat := unsat) (len := len) isOr _ _ rfl) (h1 zero σ)
  have h3 := further_needed (isOr := isOr) hu (before := []) (by simpa using h2) (fun l x r h => by simp at h)
  unfold kept at h
  obtain ⟨a, b, hab, ha, hb'⟩ := List.filter_eq_append_iff.1 h
  obtain ⟨c, d, rfl, hc, hx, hd⟩ := List.filter_eq_cons_iff.1 hb'
  have hc' : c.filter (fun p => !p.removed) = [] := List.filter_eq_nil_iff.2 hc
  have hk : kept ((a ++ c) ++ d) = l ++ r := by
    rw [kept_append, kept_append]
    simp only [kept, ha, hc', hd, List.append_nil]
  have := h3 (a ++ c) x d (by rw [← redundantParts, hab]; simp) (by simpa using hx) (by rw [hk]; exact hne)
  rwa [hk] at this

end

end Verif.Py.BoolParts
