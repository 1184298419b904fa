import Verif.Lemmas.BoolOps
import Verif.Lemmas.BoolInts

/-!
**C95** Suggested comparisons with numbers are equivalent.
-/

namespace Verif.Py.BoolOps

variable {V : Type} {S : NumSem V}

theorem order_plain {op : CmpOp} (h : isOrder op = true) : plain op = true := by cases op <;> first | rfl | cases h

/-- What comparisons of a number amount to. -/
def cmps (S : NumSem V) (p : Rat) (cs : List (CmpOp × V)) : List Bool := cs.map fun c => rel c.1 p (S.val c.2)

theorem remove_sound {a b : CmpOp × V} {isOr : Bool} (ha : isOrder a.1 = true) (hb : isOrder b.1 = true) (hd : isLess a.1 = isLess b.1) :
    let c := removeRedundant S a b (!isOr)
    (c.2 = a.2 ∨ c.2 = b.2) ∧ isOrder c.1 = true ∧ isLess c.1 = isLess a.1 ∧
      ∀ p, rel c.1 p (S.val c.2) = conn isOr [rel a.1 p (S.val a.2), rel b.1 p (S.val b.2)] := by
  obtain ⟨oa, va⟩ := a
  obtain ⟨ob, vb⟩ := b
  simp only at ha hb hd
  cases oa <;> first | (exfalso; revert ha; decide) | skip
  all_goals cases ob <;> first | (exfalso; revert hb; decide) | (exfalso; revert hd; decide) | skip
  all_goals cases isOr <;> simp only [removeRedundant, ofOrdered, byRestriction, symbols, rel, conn, isOrder, isLess] <;> grind

theorem conn_append {isOr : Bool} (as bs : List Bool) : conn isOr (as ++ bs) = conn isOr [conn isOr as, conn isOr bs] := by
  cases isOr <;> simp [conn]

theorem conn_one {isOr : Bool} (b : Bool) : conn isOr [b] = b := by cases isOr <;> simp [conn]

theorem conn_comm {isOr : Bool} (a b c : Bool) : conn isOr [conn isOr [a, b], c] = conn isOr [conn isOr [a, c], b] := by
  cases isOr <;> cases a <;> cases b <;> cases c <;> rfl

theorem conn_assoc {isOr : Bool} (a b c : Bool) : conn isOr [conn isOr [a, b], c] = conn isOr [a, conn isOr [b, c]] := by
  cases isOr <;> cases a <;> cases b <;> cases c <;> rfl

/-- The comparisons that are left. -/
def Bounds.list (s : Bounds V) : List (CmpOp × V) := s.less.toList ++ s.greater.toList

/-- The comparisons that are left amount to the same as all. -/
structure Sound (S : NumSem V) (isOr : Bool) (s : Bounds V) (cs : List (CmpOp × V)) : Prop where
  less : ∀ a, s.less = some a → IsNum S a.2 ∧ isOrder a.1 = true ∧ isLess a.1 = true
  greater : ∀ a, s.greater = some a → IsNum S a.2 ∧ isOrder a.1 = true ∧ isLess a.1 = false
  same : ∀ p, conn isOr (cmps S p s.list) = conn isOr (cmps S p cs)

theorem isNum_remove {a b c : CmpOp × V} (h : c.2 = a.2 ∨ c.2 = b.2) (ha : IsNum S a.2) (hb : IsNum S b.2) : IsNum S c.2 := by
  rcases h with h | h <;> rw [h] <;> assumption

theorem cmps_append (p : Rat) (cs ds : List (CmpOp × V)) : cmps S p (cs ++ ds) = cmps S p cs ++ cmps S p ds := List.map_append

theorem bound_sound {isOr : Bool} {s : Bounds V} {cs : List (CmpOp × V)} {c : CmpOp × V} (h : Sound S isOr s cs) (hc : IsNum S c.2)
    (ho : isOrder c.1 = true) : Sound S isOr (bound S (!isOr) s c) (cs ++ [c]) := by
  obtain ⟨l, g, ch⟩ := s
  unfold bound
  cases hd : isLess c.1 with
  | true =>
    cases l with
    | none =>
      refine ⟨fun a ha => ?_, h.greater, fun p => ?_⟩
      · cases ha; exact ⟨hc, ho, hd⟩
      · rw [cmps_append, conn_append, ← h.same p, ← conn_append]
        cases g <;> cases isOr <;> simp [Bounds.list, cmps, conn, Bool.and_comm, Bool.or_comm]
    | some a =>
      obtain ⟨h1, h2, h3⟩ := h.less a rfl
      obtain ⟨r1, r2, r3, r4⟩ := remove_sound (S := S) (isOr := isOr) h2 ho (h3.trans hd.symm)
      refine ⟨fun a' ha => ?_, h.greater, fun p => ?_⟩
      · cases ha; exact ⟨isNum_remove r1 h1 hc, r2, r3.trans h3⟩
      · rw [cmps_append, conn_append, ← h.same p]
        have := r4 p
        cases g <;> cases isOr <;> simp_all [Bounds.list, cmps, conn, Bool.and_comm, Bool.or_comm, Bool.and_assoc, Bool.or_assoc]
  | false =>
    cases g with
    | none =>
      refine ⟨h.less, fun a ha => ?_, fun p => ?_⟩
      · cases ha; exact ⟨hc, ho, hd⟩
      · rw [cmps_append, conn_append, ← h.same p, ← conn_append]
        cases l <;> cases isOr <;> simp [Bounds.list, cmps, conn]
    | some a =>
      obtain ⟨h1, h2, h3⟩ := h.greater a rfl
      obtain ⟨r1, r2, r3, r4⟩ := remove_sound (S := S) (isOr := isOr) h2 ho (h3.trans hd.symm)
      refine ⟨h.less, fun a' ha => ?_, fun p => ?_⟩
      · cases ha; exact ⟨isNum_remove r1 h1 hc, r2, r3.trans h3⟩
      · rw [cmps_append, conn_append, ← h.same p]
        have := r4 p
        cases l <;> cases isOr <;> simp_all [Bounds.list, cmps, conn, Bool.and_assoc, Bool.or_assoc]

theorem bounds_sound {isOr : Bool} : ∀ {ds : List (CmpOp × V)} {s : Bounds V} {cs : List (CmpOp × V)}, Sound S isOr s cs →
    (∀ c ∈ ds, IsNum S c.2 ∧ isOrder c.1 = true) → Sound S isOr (ds.foldl (bound S (!isOr)) s) (cs ++ ds)
  | [], _, _, h, _ => by simpa using h
  | c :: ds, s, cs, h, hc => by
    have := bounds_sound (ds := ds) (bound_sound h (hc c (by simp)).1 (hc c (by simp)).2) (fun d hd => hc d (by simp [hd]))
    simpa using this

/-- `abs` of a number. -/
def absQ (p : Rat) : Rat := if p < 0 then -p else p

theorem less_cases {op : CmpOp} (h : isLess op = true) : op = .lt ∨ op = .le := by cases op <;> first | (cases h; done) | simp

theorem greater_cases {op : CmpOp} (ho : isOrder op = true) (h : isLess op = false) : op = .gt ∨ op = .ge := by
  cases op <;> first | (cases h; done) | (cases ho; done) | simp

theorem ofBounds_sound (hS : Numbers S) {t original : List Tok} {e : Expr} (ht : Reads 5 t e) {G : Env V → Prop} {isOr : Bool} {s : Bounds V}
    {cs : List (CmpOp × V)} (h : Sound S isOr s cs) {m : Msg} (hm : ofBounds S t original isOr s = some m)
    (habs : m.kind = .abs → ∃ a, Reads 5 (addAbs t) a ∧ ∀ env, G env → ∀ p, Numeric S env e p → Numeric S env a (absQ p)) :
    m.original = original ∧ (m.kind = .redundant ∨ m.kind = .equal ∨ m.kind = .abs) ∧ ∃ e', Reads 0 m.suggestion e' ∧
      ∀ env, G env → ∀ p, Numeric S env e p → truthOf S.toSem env e' = .ok (conn isOr (cmps S p cs)) := by
  have one : ∀ {op v}, plain op = true → IsNum S v → (∀ p, rel op p (S.val v) = conn isOr (cmps S p cs)) →
      ∃ e', Reads 0 (t ++ (op.toks ++ S.shown v)) e' ∧
        ∀ env, G env → ∀ p, Numeric S env e p → truthOf S.toSem env e' = .ok (conn isOr (cmps S p cs)) := by
    intro op v ho hv heq
    obtain ⟨c, h1, h2⟩ := compare_reads hS ht ho hv
    exact ⟨c, h1.mono (by omega), fun env _ p hp => by rw [h2 env p hp, heq p]⟩
  have abs : m.kind = .abs → ∀ {op v}, plain op = true → IsNum S v → (∀ p, rel op (absQ p) (S.val v) = conn isOr (cmps S p cs)) →
      ∃ e', Reads 0 (addAbs t ++ (op.toks ++ S.shown v)) e' ∧
        ∀ env, G env → ∀ p, Numeric S env e p → truthOf S.toSem env e' = .ok (conn isOr (cmps S p cs)) := by
    intro hk op v ho hv heq
    obtain ⟨a, ha1, ha2⟩ := habs hk
    obtain ⟨c, h1, h2⟩ := compare_reads hS ha1 ho hv
    exact ⟨c, h1.mono (by omega), fun env hG p hp => by rw [h2 env _ (ha2 env hG p hp), heq p]⟩
  have lit : ∀ b, (∀ p, b = conn isOr (cmps S p cs)) → ∃ e', Reads 0 (boolText b) e' ∧
        ∀ env, G env → ∀ p, Numeric S env e p → truthOf S.toSem env e' = .ok (conn isOr (cmps S p cs)) := by
    intro b heq
    exact ⟨_, (reads_boolText b).mono (by omega), fun env _ p _ => by rw [truthOf_bool hS, ← heq p]⟩
  obtain ⟨l, g, ch⟩ := s
  have hsame := h.same
  unfold ofBounds at hm
  cases l with
  | none =>
    cases g with
    | none => cases hm
    | some b =>
      cases hm
      obtain ⟨h1, h2, h3⟩ := h.greater b rfl
      refine ⟨rfl, .inl rfl, one (order_plain h2) h1 fun p => ?_⟩
      rw [← hsame p]
      simp [Bounds.list, cmps, conn_one]
  | some a =>
    obtain ⟨a1, a2, a3⟩ := h.less a rfl
    cases g with
    | none =>
      cases hm
      refine ⟨rfl, .inl rfl, one (order_plain a2) a1 fun p => ?_⟩
      rw [← hsame p]
      simp [Bounds.list, cmps, conn_one]
    | some b =>
      obtain ⟨b1, b2, b3⟩ := h.greater b rfl
      have hsame : ∀ p, conn isOr (cmps S p cs) = conn isOr [rel a.1 p (S.val a.2), rel b.1 p (S.val b.2)] := fun p => (hsame p).symm
      simp only at hm
      split at hm
      · rename_i u hu
        cases hm
        refine ⟨rfl, by simp only; split <;> simp, ?_⟩
        unfold alwaysText at hu
        split at hu
        · rename_i heq
          cases hu
          split
          · rename_i hc
            obtain ⟨c1, c2, rfl⟩ := hc
            refine one (op := .ne) rfl a1 fun p => ?_
            rw [hsame p]
            rcases less_cases a3 with e | e <;> rcases greater_cases b2 b3 with e' | e' <;> rw [e] at c1 ⊢ <;> rw [e'] at c2 ⊢ <;>
              simp_all [symbols, rel, conn]
            grind
          · rename_i hc
            split
            · rename_i hc'
              obtain ⟨c1, c2, rfl⟩ := hc'
              refine one (op := .eq) rfl a1 fun p => ?_
              rw [hsame p]
              rcases less_cases a3 with e | e <;> rcases greater_cases b2 b3 with e' | e' <;> rw [e] at c1 ⊢ <;> rw [e'] at c2 ⊢ <;>
                simp_all [symbols, rel, conn]
              grind
            · rename_i hc'
              cases isOr
              · refine lit false fun p => ?_
                rw [hsame p]
                rcases less_cases a3 with e | e <;> rcases greater_cases b2 b3 with e' | e' <;> rw [e] at hc' ⊢ <;> rw [e'] at hc' ⊢ <;>
                  simp_all [symbols, rel, conn] <;> grind
              · refine lit true fun p => ?_
                rw [hsame p]
                rcases less_cases a3 with e | e <;> rcases greater_cases b2 b3 with e' | e' <;> rw [e] at hc ⊢ <;> rw [e'] at hc ⊢ <;>
                  simp_all [symbols, rel, conn] <;> grind
        · split at hu
          · rename_i hc
            obtain ⟨rfl, hc⟩ := hc
            cases hu
            refine lit false fun p => ?_
            rw [hsame p]
            have hlt : S.val a.2 < S.val b.2 := by
              rcases hc with h | h
              · exact h.1
              · rw [b3] at h; cases h.2
            rcases less_cases a3 with e | e <;> rcases greater_cases b2 b3 with e' | e' <;> rw [e, e'] <;> simp [rel, conn] <;> grind
          · split at hu
            · rename_i hc
              obtain ⟨rfl, hc⟩ := hc
              cases hu
              refine lit true fun p => ?_
              rw [hsame p]
              have hlt : S.val b.2 < S.val a.2 := by
                rcases hc with h | h
                · rw [a3] at h; cases h.2
                · exact h.1
              rcases less_cases a3 with e | e <;> rcases greater_cases b2 b3 with e' | e' <;> rw [e, e'] <;> simp [rel, conn] <;> grind
            · cases hu
      · rename_i hu
        split at hm
        · split at hm
          · cases hm
            refine ⟨rfl, .inl rfl, ?_⟩
            obtain ⟨c, h1, h2⟩ := compare_reads hS ht (order_plain a2) a1
            obtain ⟨d, h3, h4⟩ := compare_reads hS ht (order_plain b2) b1
            have hp : boolPrec isOr + 1 ≤ 4 := by cases isOr <;> decide
            refine ⟨.boolOp isOr [c, d], Reads.mono (.boolOp (.cons (h1.mono hp) (.one (h3.mono hp)))) (by omega), fun env _ p hpn => ?_⟩
            rw [hsame p, truthOf_boolOp (isOr := isOr) (es := [c, d]) (bs := [_, _]) (by simp) (by simp [h2 env p hpn, h4 env p hpn]; exact ⟨rfl, rfl⟩)]
          · cases hm
        · rename_i hc
          cases hm
          refine ⟨rfl, .inr (.inr rfl), ?_⟩
          have hneg : S.val a.2 = -(S.val b.2) := by grind
          have hsw : a.1 = switched b.1 := by grind
          have hna : ¬ (a.1 = .ge ∨ a.1 = .gt) := by
            rcases less_cases a3 with e | e <;> rw [e] <;> decide
          unfold alwaysText at hu
          cases isOr with
          | true =>
            have hneg' : S.val a.2 < 0 := by
              simp only [b3, a3] at hu
              grind
            simp only [singleOr, if_neg hna, if_pos hneg', if_true]
            refine abs rfl (order_plain b2) b1 fun p => ?_
            rw [hsame p]
            rcases greater_cases b2 b3 with e' | e' <;> rw [hsw, e'] <;> simp only [switched, rel, conn, absQ] <;> grind
          | false =>
            have hneg' : 0 < S.val a.2 := by
              simp only [b3, a3] at hu
              grind
            simp only [singleAnd, if_neg hna, if_pos hneg', Bool.false_eq_true, if_false]
            refine abs rfl (order_plain a2) a1 fun p => ?_
            rw [hsame p]
            rcases greater_cases b2 b3 with e' | e' <;> rw [hsw, e'] <;> simp only [switched, rel, conn, absQ] <;> grind

/-! ### Groups -/

theorem groupText_eq (t : List Tok) (isOr : Bool) : ∀ cs : List (CmpOp × V),
    groupText S t isOr cs = sepBy (boolTok isOr) (cs.map fun c => t ++ (c.1.toks ++ S.shown c.2))
  | [] => rfl
  | [_] => rfl
  | c :: c' :: cs => by
    rw [groupText, groupText_eq t isOr (c' :: cs)]
    rfl

theorem group_reads (hS : Numbers S) {t : List Tok} {e : Expr} (ht : Reads 5 t e) {isOr : Bool} {cs : List (CmpOp × V)}
    (hc : ∀ c ∈ cs, IsNum S c.2 ∧ isOrder c.1 = true) (hl : 2 ≤ cs.length) :
    ∃ o', Reads 0 (groupText S t isOr cs) o' ∧ ∀ env p, Numeric S env e p → truthOf S.toSem env o' = .ok (conn isOr (cmps S p cs)) := by
  have key : ∀ cs : List (CmpOp × V), (∀ c ∈ cs, IsNum S c.2 ∧ isOrder c.1 = true) → ∃ es : List Expr, es.length = cs.length ∧
      List.Forall₂ (fun t e => Reads (boolPrec isOr + 1) t e) (cs.map fun c => t ++ (c.1.toks ++ S.shown c.2)) es ∧
      ∀ env p, Numeric S env e p → es.map (truthOf S.toSem env) = (cmps S p cs).map .ok := by
    intro cs
    induction cs with
    | nil => exact fun _ => ⟨[], rfl, .nil, fun _ _ _ => rfl⟩
    | cons c cs ih =>
      intro h
      obtain ⟨es, h1, h2, h3⟩ := ih fun d hd => h d (by simp [hd])
      obtain ⟨d, h4, h5⟩ := compare_reads hS ht (order_plain (h c (by simp)).2) (h c (by simp)).1
      refine ⟨d :: es, by simp [h1], .cons (h4.mono (by cases isOr <;> decide)) h2, fun env p hp => ?_⟩
      simp [h5 env p hp, h3 env p hp, cmps]
  obtain ⟨es, h1, h2, h3⟩ := key cs hc
  refine ⟨.boolOp isOr es, ?_, fun env p hp => truthOf_boolOp (by rintro rfl; simp at h1; omega) (h3 env p hp)⟩
  rw [groupText_eq]
  exact (reads_boolOp h2 (by omega)).mono (by omega)

theorem mem_groupsOf : ∀ {ops : List (Expr × CmpOp × V)} {seen : List Expr} {g : Expr × List (CmpOp × V)}, g ∈ groupsOf seen ops →
    g.1 ∉ seen ∧ g.2 = (ops.filter fun d => d.1 == g.1).map (·.2)
  | [], seen, g, h => by cases h
  | c :: cs, seen, g, h => by
    rw [groupsOf] at h
    split at h
    · rename_i hs
      obtain ⟨h1, h2⟩ := mem_groupsOf h
      have hne : c.1 ≠ g.1 := by
        intro he
        rw [he] at hs
        exact h1 (by simpa using hs)
      refine ⟨h1, ?_⟩
      rw [h2, List.filter_cons]
      simp only [beq_iff_eq, hne, if_false]
    · rename_i hs
      rcases List.mem_cons.1 h with rfl | h
      · exact ⟨by simpa using hs, by simp⟩
      · obtain ⟨h1, h2⟩ := mem_groupsOf h
        rw [List.mem_cons, not_or] at h1
        refine ⟨h1.2, ?_⟩
        rw [h2, List.filter_cons]
        simp only [beq_iff_eq, Ne.symm h1.1, if_false]

/-- The comparison with a number that an operand is. -/
def opOf (S : NumSem V) (x : Expr) : Option (Expr × CmpOp × V) := match operandOf S x with | .ok r => r | .error _ => none

theorem collect_operands {isOr : Bool} {acc acc' : Acc V} {x : Expr} (h : collect S isOr acc x = .ok acc') :
    acc'.operands = acc.operands ++ (opOf S x).toList := by
  unfold collect at h
  unfold opOf
  split at h
  · cases h
  · rename_i e op v ho; cases h; simp [ho]
  · rename_i ho
    simp only [ho]
    repeat' split at h
    all_goals first | (cases h; done) | (cases h; simp)

theorem collectAll_operands {pure : Expr → Bool} {isOr : Bool} : ∀ {values : List Expr} {acc acc' : Acc V},
    collectAll S pure isOr acc values = .ok (some acc') → acc'.operands = acc.operands ++ values.filterMap (opOf S)
  | [], acc, acc', h => by cases h; simp
  | x :: values, acc, acc', h => by
    rw [collectAll] at h
    split at h
    · split at h
      · cases h
      · rename_i acc1 hc
        rw [collectAll_operands h, collect_operands hc, List.filterMap_cons]
        cases opOf S x <;> simp
    · cases h

theorem rel_switched {op : CmpOp} (h : isOrder op = true) (p q : Rat) : rel (switched op) p q = rel op q p := by
  cases op <;> first | rfl | cases h

theorem order_switched {op : CmpOp} (h : isOrder op = true) : isOrder (switched op) = true := by cases op <;> first | rfl | cases h

/-- A comparison of an expression with a number, in either order. -/
def Compares (S : NumSem V) (e : Expr) (x : Expr) : Prop :=
  ∃ op n v, isOrder op = true ∧ IsNum S v ∧ (∀ env, eval S.toSem env n = .ok v) ∧ (x = .compare e [(op, n)] ∨ x = .compare n [(op, e)])

theorem opOf_sound (hS : Numbers S) {x e : Expr} {op : CmpOp} {v : V} (h : opOf S x = some (e, op, v)) :
    Compares S e x ∧ IsNum S v ∧ isOrder op = true ∧
      ∀ env p, Numeric S env e p → truthOf S.toSem env x = .ok (rel op p (S.val v)) := by
  unfold opOf at h
  split at h
  · rename_i r ho
    subst h
    unfold operandOf at ho
    split at ho
    · rename_i left o right
      split at ho
      · cases ho
      · rename_i l hl
        split at ho
        · cases ho
        · rename_i r hr
          split at ho
          · rename_i w _
            split at ho
            · rename_i hord
              cases ho
              refine ⟨⟨o, left, v, hord, (number_some hl).1, (number_some hl).2, .inr rfl⟩, (number_some hl).1, order_switched hord, fun env p hp => ?_⟩
              rw [rel_switched hord]
              exact truthOf_compare hS (order_plain hord) (number_numeric hS hl env) hp
            · cases ho
          · rename_i w _
            split at ho
            · rename_i hord
              cases ho
              refine ⟨⟨op, right, v, hord, (number_some hr).1, (number_some hr).2, .inl rfl⟩, (number_some hr).1, hord, fun env p hp => ?_⟩
              exact truthOf_compare hS (order_plain hord) hp (number_numeric hS hr env)
            · cases ho
          · cases ho
    · cases ho
  · cases h

/-- The operands of a group. -/
def inGroup (S : NumSem V) (e : Expr) (x : Expr) : Bool := match opOf S x with | some y => y.1 == e | none => false

theorem group_truth (hS : Numbers S) {env : Env V} {e : Expr} {p : Rat} (hp : Numeric S env e p) : ∀ values : List Expr,
    (values.filter (inGroup S e)).map (truthOf S.toSem env) =
      (cmps S p (((values.filterMap (opOf S)).filter fun d => d.1 == e).map (·.2))).map .ok
  | [] => rfl
  | x :: values => by
    have ih := group_truth hS hp values
    rw [List.filter_cons, List.filterMap_cons]
    cases ho : opOf S x with
    | none =>
      have : inGroup S e x = false := by simp [inGroup, ho]
      simp only [this]
      exact ih
    | some y =>
      obtain ⟨e', op, v⟩ := y
      by_cases hc : e' = e
      · subst hc
        have h1 : inGroup S e' x = true := by simp [inGroup, ho]
        simp only [h1, if_true, List.filter_cons, beq_self_eq_true, List.map_cons, ih]
        rw [(opOf_sound hS ho).2.2.2 env p hp]
        rfl
      · have h1 : inGroup S e x = false := by simp [inGroup, ho, hc]
        have h2 : (e' == e) = false := by simp [hc]
        simp only [h1, List.filter_cons, h2]
        exact ih

/-- `abs` is Python's, and gives the absolute values of numbers. -/
def HasAbs (S : NumSem V) (env : Env V) : Prop :=
  ∃ f, env "abs".toList = .ok f ∧ ∀ v p, S.num v = some p → ∃ w, S.call f [v] = .ok w ∧ S.num w = some (if p < 0 then -p else p)

theorem abs_numeric {env : Env V} (h : HasAbs S env) {e : Expr} {p : Rat} (hp : Numeric S env e p) :
    Numeric S env (.call (.name "abs".toList) [e]) (absQ p) := by
  obtain ⟨f, hf, hc⟩ := h
  obtain ⟨v, hv, hn⟩ := hp
  obtain ⟨w, hw, hwn⟩ := hc v p hn
  refine ⟨w, ?_, hwn⟩
  rw [eval, eval, hf]
  simp only [evalAll, hv, hw]

theorem numeric_unique {env : Env V} {e : Expr} {p q : Rat} (hp : Numeric S env e p) (hq : Numeric S env e q) : p = q := by
  obtain ⟨v, h1, h2⟩ := hp
  obtain ⟨w, h3, h4⟩ := hq
  rw [h1] at h3
  cases h3
  rw [h2] at h4
  exact Option.some.inj h4

theorem absQ_absQ (p : Rat) : absQ (absQ p) = absQ p := by unfold absQ; grind

/-- The text begins with a call of the function. -/
def BeginsCall (f : Str) (t : List Tok) : Prop := ∃ rest, t = .ident f :: .sym "(" :: rest

theorem begins_iff {f : Str} {t : List Tok} : startsWith f t = true ↔ BeginsCall f t := by
  constructor
  · intro h
    unfold startsWith at h
    split at h
    · simp only [Bool.and_eq_true, beq_iff_eq] at h
      exact ⟨_, by rw [h.1, h.2]⟩
    · exact nomatch h
  · rintro ⟨rest, rfl⟩
    simp [startsWith]

theorem not_begins {f : Str} {t : List Tok} (h : ¬ BeginsCall f t) : startsWith f t = false := by
  rw [← begins_iff] at h
  simpa using h

theorem abs_reads {e : Expr} (hok : e.Ok) (h5 : 5 ≤ e.prec) (h : startsWith "abs".toList e.text = false ∨ ∃ y, e = .call (.name "abs".toList) [y]) :
    ∃ a, Reads 5 (addAbs e.text) a ∧ ∀ env, (HasAbs S env ∧ ∀ y, e = .call (.name "abs".toList) [y] → ∃ q, Numeric S env y q) → ∀ p,
      Numeric S env e p → Numeric S env a (absQ p) := by
  unfold addAbs
  cases hs : startsWith "abs".toList e.text with
  | false =>
    refine ⟨.call (.name "abs".toList) [e], ?_, fun env hG p hp => abs_numeric hG.1 hp⟩
    exact Reads.mono (.call (.name _) (.one (reads_text_at hok (Nat.zero_le _)))) (by omega)
  | true =>
    rcases h with h | ⟨y, rfl⟩
    · rw [hs] at h; cases h
    · refine ⟨_, reads_text_at hok h5, fun env hG p hp => ?_⟩
      obtain ⟨q, hq⟩ := hG.2 y rfl
      rw [numeric_unique hp (abs_numeric hG.1 hq), absQ_absQ, ← numeric_unique hp (abs_numeric hG.1 hq)]
      exact hp

/-- **C95**. A message `redundant-compare-in-condition`, `using-compare-instead-of-equal` or `simplifiable-with-abs` is about the
operands that compare some expression with numbers, of which there are at least two. What it shows as the original has the truth
value of these operands, and so has the suggestion: replacing them by it keeps the truth value of the condition.

Missing: expressions that bind as weak as comparisons, or weaker (`C95_brackets_counterexample`), and for `simplifiable-with-abs` those
that start with a call of `abs` without being one (`C95_abs_counterexample`). -/
theorem C95_partial (hS : Numbers S) (pure : Expr → Bool) (isOr : Bool) (values : List Expr) (hok : ∀ x ∈ values, x.Ok) (msgs : List Msg)
    (h : check S pure isOr values = .ok msgs) (m : Msg) (hm : m ∈ msgs) (hk : m.kind = .redundant ∨ m.kind = .equal ∨ m.kind = .abs) :
    ∃ e sel, (∀ x ∈ values, sel x = true → Compares S e x) ∧ 2 ≤ (values.filter sel).length ∧
      (5 ≤ e.prec → (m.kind = .abs → ¬ BeginsCall "abs".toList e.text ∨ ∃ y, e = .call (.name "abs".toList) [y]) →
        ∃ o' e', ReadsAs 0 m.original o' ∧ ReadsAs 0 m.suggestion e' ∧ ∀ env p, Numeric S env e p →
          (m.kind = .abs → HasAbs S env ∧ ∀ y, e = .call (.name "abs".toList) [y] → ∃ q, Numeric S env y q) →
          truthOf S.toSem env o' = truthOf S.toSem env (.boolOp isOr (values.filter sel)) ∧
          truthOf S.toSem env e' = truthOf S.toSem env (.boolOp isOr (values.filter sel)) ∧
          ((∀ x ∈ values, ∃ b, truthOf S.toSem env x = .ok b) →
            truthOf S.toSem env (.boolOp isOr values) = truthOf S.toSem env (.boolOp isOr (e' :: values.filter fun x => !sel x)))) := by
  unfold check at h
  split at h
  · cases h
  · cases h; cases hm
  · rename_i acc hacc
    cases h
    have hops : acc.operands = values.filterMap (opOf S) := by simpa using collectAll_operands hacc
    have hg : m ∈ checkGroups S isOr acc.operands := by
      rcases List.mem_append.1 hm with hm | hm
      · rcases List.mem_append.1 hm with hm | hm
        · exact hm
        · obtain ⟨p, -, hp⟩ := List.mem_filterMap.1 hm
          unfold byEquals at hp
          repeat' split at hp
          all_goals first | (cases hp; done) | (cases hp; rcases hk with hk | hk | hk <;> cases hk)
      · unfold checkMaxMin at hm
        split at hm
        · cases hm
        · rw [List.mem_singleton] at hm
          subst hm
          rcases hk with hk | hk | hk <;> cases hk
    obtain ⟨g, hgm, hgs⟩ := List.mem_filterMap.1 hg
    split at hgs
    · cases hgs
    · rename_i hlen
      obtain ⟨-, hgroup⟩ := mem_groupsOf hgm
      rw [hops] at hgroup
      have hin : ∀ c ∈ g.2, IsNum S c.2 ∧ isOrder c.1 = true := by
        intro c hc
        rw [hgroup] at hc
        obtain ⟨⟨e1, o1, v1⟩, hd, rfl⟩ := List.mem_map.1 hc
        obtain ⟨x, -, hx⟩ := List.mem_filterMap.1 (List.mem_filter.1 hd).1
        obtain ⟨-, h2, h3, -⟩ := opOf_sound hS hx
        exact ⟨h2, h3⟩
      have hsel : ∀ x ∈ values, inGroup S g.1 x = true → Compares S g.1 x := by
        intro x _ hx
        unfold inGroup at hx
        split at hx
        · rename_i y hy
          obtain ⟨e1, o1, v1⟩ := y
          have : e1 = g.1 := by simpa using hx
          exact this ▸ (opOf_sound hS hy).1
        · cases hx
      have hl : (values.filter (inGroup S g.1)).length = g.2.length := by
        have key : ∀ l : List Expr, (l.filter (inGroup S g.1)).length = ((l.filterMap (opOf S)).filter fun d => d.1 == g.1).length := by
          intro l
          induction l with
          | nil => rfl
          | cons x l ih =>
            rw [List.filter_cons, List.filterMap_cons]
            cases ho : opOf S x with
            | none => simpa [inGroup, ho] using ih
            | some y =>
              by_cases hc : y.1 = g.1
              · simpa [inGroup, ho, hc] using ih
              · simpa [inGroup, ho, hc] using ih
        rw [hgroup, List.length_map, key]
      refine ⟨g.1, inGroup S g.1, hsel, by omega, fun h5 habs => ?_⟩
      have hexok : g.1.Ok := by
        have hpos : 0 < (values.filter (inGroup S g.1)).length := by omega
        obtain ⟨x, hx⟩ := List.exists_mem_of_length_pos hpos
        obtain ⟨hx1, hx2⟩ := List.mem_filter.1 hx
        obtain ⟨op, n, v, -, -, -, rfl | rfl⟩ := hsel x hx1 hx2
        · have := hok _ hx1
          simp only [Expr.Ok] at this
          exact this.2.1
        · have := hok _ hx1
          simp only [Expr.Ok, OkOps] at this
          exact this.2.2.1
      have ht : Reads 5 g.1.text g.1 := reads_text_at hexok h5
      have hsound := bounds_sound (S := S) (isOr := isOr) (ds := g.2) (s := ⟨none, none, false⟩) (cs := [])
        ⟨(fun _ h => nomatch h), (fun _ h => nomatch h), (fun _ => rfl)⟩ hin
      obtain ⟨ho, -, e', he', hev⟩ := ofBounds_sound hS ht
        (G := fun env => m.kind = .abs → HasAbs S env ∧ ∀ y, g.1 = .call (.name "abs".toList) [y] → ∃ q, Numeric S env y q)
        hsound hgs (fun hk => by
          obtain ⟨a, h1, h2⟩ := abs_reads (S := S) hexok h5 ((habs hk).imp_left not_begins)
          exact ⟨a, h1, fun env hG => h2 env (hG hk)⟩)
      obtain ⟨o', ho', hov⟩ := group_reads hS ht (isOr := isOr) hin (by omega)
      refine ⟨o', e', by rw [ho]; exact ho'.as, he'.as, fun env p hp hG => ?_⟩
      have hgt : truthOf S.toSem env (.boolOp isOr (values.filter (inGroup S g.1))) = .ok (conn isOr (cmps S p g.2)) := by
        refine truthOf_boolOp (fun e => by rw [e] at hl; simp at hl; omega) ?_
        rw [group_truth hS hp, hgroup]
      have h1 := hev env hG p hp
      rw [List.nil_append] at h1
      refine ⟨(hov env p hp).trans hgt.symm, h1.trans hgt.symm, fun hall => ?_⟩
      exact replace_group (fun e => by rw [e] at hl; simp at hl; omega) hall (h1.trans hgt.symm)

/-! ### Examples -/

/-- Everything besides integers raises. -/
def rest : FoldSem Val where
  lit _ := .none
  ofBool := .bool
  truth _ := .error .typeError
  unary _ _ := .error .typeError
  binary _ _ _ := .error .typeError
  cmp _ _ _ := .error .typeError
  call _ _ := .error .typeError
  attr _ _ := .error .attributeError
  item _ _ := .error .typeError
  other _ _ := .error .typeError
  isNumber _ := false
  isZero _ := .error .typeError

theorem rest_numbers : Numbers (intNum rest) := intNum_numbers fun _ => rfl

def exX : Expr := .name ['x']
def lit (n : Nat) : Expr := .const (.int n)
def neg (n : Nat) : Expr := .unary .neg (lit n)
def cmp1 (l : Expr) (op : CmpOp) (r : Expr) : Expr := .compare l [(op, r)]

/-- The names `abs` and `x`. -/
def envX (i : Int) : Env Val := fun n => if n = "abs".toList then .ok (.builtin "abs".toList) else if n = ['x'] then .ok (.int i) else .error .keyError

theorem natAbs_rat (i : Int) : ((i.natAbs : Int) : Rat) = if (i : Rat) < 0 then -(i : Rat) else (i : Rat) := by
  have h0 : ((0 : Int) : Rat) = 0 := rfl
  by_cases h : i < 0
  · rw [if_pos (by rw [← h0, Rat.intCast_lt_intCast]; exact h), ← Rat.intCast_neg]
    congr 1
    omega
  · rw [if_neg (by rw [← h0, Rat.intCast_lt_intCast]; exact h)]
    congr 1
    omega

theorem envX_abs (i : Int) : HasAbs (intNum rest) (envX i) := by
  refine ⟨.builtin "abs".toList, rfl, fun v p hv => ?_⟩
  obtain ⟨j, hj, rfl⟩ := Option.map_eq_some_iff.1 (show v.asInt.map (fun i : Int => (i : Rat)) = some p from hv)
  refine ⟨.int j.natAbs, intSem_call rest (by simp [builtinCall, hj]), ?_⟩
  exact congrArg some (natAbs_rat j)

/-- `x > 3 and 5 < x and x <= 7`: `x > 3` goes. -/
example : check (intNum rest) (fun _ => true) false [cmp1 exX .gt (lit 3), cmp1 (lit 5) .lt exX, cmp1 exX .le (lit 7)] =
    .ok [⟨.redundant, [.ident ['x'], .sym ">", .lit (.int 3), .sym "and", .ident ['x'], .sym ">", .lit (.int 5), .sym "and", .ident ['x'],
      .sym "<=", .lit (.int 7)], [.ident ['x'], .sym "<=", .lit (.int 7), .sym "and", .ident ['x'], .sym ">", .lit (.int 5)]⟩] := by
  rfl

/-- `x <= -4 or x >= 4`: the hypotheses of C95 are met, and the suggestion is `abs(x) >= 4`. -/
example (i : Int) : ∃ e', ReadsAs 0 [.ident "abs".toList, .sym "(", .ident ['x'], .sym ")", .sym ">=", .lit (.int 4)] e' ∧
    truthOf (intNum rest).toSem (envX i) (.boolOp true [cmp1 exX .le (neg 4), cmp1 exX .ge (lit 4)]) =
      truthOf (intNum rest).toSem (envX i) (.boolOp true [e']) := by
  obtain ⟨e, sel, h1, h2, h3⟩ := C95_partial rest_numbers (fun _ => true) true [cmp1 exX .le (neg 4), cmp1 exX .ge (lit 4)]
    (by simp [Expr.Ok, OkOps, cmp1, exX, lit, neg]) [_] rfl _ (List.mem_singleton.2 rfl) (.inr (.inr rfl))
  have hsel : sel (cmp1 exX .le (neg 4)) = true ∧ sel (cmp1 exX .ge (lit 4)) = true := by
    rw [List.filter_cons, List.filter_cons] at h2
    cases ha : sel (cmp1 exX .le (neg 4)) <;> cases hb : sel (cmp1 exX .ge (lit 4)) <;> simp_all
  have hx : e = exX := by
    obtain ⟨op, n, v, -, -, hn, h | h⟩ := h1 _ (by simp) hsel.1
    · cases h; rfl
    · cases h
      have := hn (fun _ => .error .keyError)
      cases this
  subst hx
  obtain ⟨o', e', -, h4, h5⟩ := h3 (by decide) (fun _ => .inl fun h => nomatch (begins_iff.2 h : startsWith _ exX.text = true))
  obtain ⟨-, -, h6⟩ := h5 (envX i) i ⟨.int i, rfl, rfl⟩ (fun _ => ⟨envX_abs i, fun y hy => by cases hy⟩)
  refine ⟨e', h4, ?_⟩
  have := h6 (by
    intro x hx
    rcases List.mem_cons.1 hx with rfl | hx
    · exact ⟨_, rfl⟩
    · rw [List.mem_singleton] at hx; subst hx; exact ⟨_, rfl⟩)
  rw [this]
  simp [hsel]

/-! ### Disagreements -/

/-- `abs(x) - 10` -/
def absMinus : Expr := .bin .sub (.call (.name "abs".toList) [exX]) (lit 10)

/-- **C95** is false of the code: for `abs(x) - 10 < 4 and abs(x) - 10 > -4`, `abs(x) - 10 < 4` is suggested, because the text already
starts with `abs(`; for `x = 0`, the condition is false and the suggestion true. -/
theorem C95_abs_counterexample :
    let values := [cmp1 absMinus .lt (lit 4), cmp1 absMinus .gt (neg 4)]
    let suggested := cmp1 absMinus .lt (lit 4)
    (∃ original, check (intNum rest) (fun _ => true) false values = .ok [⟨.abs, original, suggested.text⟩]) ∧ ReadsAs 0 suggested.text suggested ∧
      HasAbs (intNum rest) (envX 0) ∧ truthOf (intNum rest).toSem (envX 0) (.boolOp false values) = .ok false ∧
      truthOf (intNum rest).toSem (envX 0) suggested = .ok true :=
  ⟨⟨_, rfl⟩, (reads_text_at (by simp [Expr.Ok, OkOps, OkAll, cmp1, absMinus, exX, lit]) (Nat.zero_le _)).as, envX_abs 0, rfl, rfl⟩

/-- `(x < 3) < 5 and (x < 3) < 7`, where brackets are lost: `x < 3 < 5` is suggested, which is false for `x = 4`. -/
theorem C95_brackets_counterexample :
    let values := [cmp1 (cmp1 exX .lt (lit 3)) .lt (lit 5), cmp1 (cmp1 exX .lt (lit 3)) .lt (lit 7)]
    let suggested : Expr := .compare exX [(.lt, lit 3), (.lt, lit 5)]
    (∃ original, check (intNum rest) (fun _ => true) false values = .ok [⟨.redundant, original, suggested.text⟩]) ∧
      ReadsAs 0 suggested.text suggested ∧ truthOf (intNum rest).toSem (envX 4) (.boolOp false values) = .ok true ∧
      truthOf (intNum rest).toSem (envX 4) suggested = .ok false :=
  ⟨⟨_, rfl⟩, (reads_text_at (by simp [Expr.Ok, OkOps, exX, lit]) (Nat.zero_le _)).as, rfl, rfl⟩

end Verif.Py.BoolOps
