import Verif.Props.BoolMaxMin
import Mathlib.Data.List.Perm.Subperm
import Mathlib.Data.List.Nodup

/-!
**C97** Suggested comparisons of remainders are equivalent.
-/

namespace Verif.Py.BoolOps

variable {V : Type} {S : NumSem V}

/-- The value of an expression is an integer. -/
def Integral (S : NumSem V) (env : Env V) (e : Expr) (i : Int) : Prop := Numeric S env e (i : Rat)

/-- What Python does with remainders of integers. -/
structure Remainders (S : NumSem V) : Prop where
  mod : ∀ {a b} {i m : Int}, 2 ≤ m → S.num a = some (i : Rat) → S.num b = some (m : Rat) →
    ∃ w, S.binary .mod a b = .ok w ∧ S.num w = some ((i % m : Int) : Rat)
  lit : ∀ n : Nat, S.num (S.lit (.int n)) = some ((n : Int) : Rat)
  int : ∀ {v}, S.isInt v = true → IsNum S v → ∃ i : Int, S.num v = some (i : Rat)

theorem isInt_val (hR : Remainders S) {v : V} (h : S.isInt v = true) (hn : IsNum S v) : S.num v = some (((S.val v).num : Int) : Rat) := by
  obtain ⟨i, hi⟩ := hR.int h hn
  have : S.val v = (i : Rat) := by simp [NumSem.val, hi]
  rw [this, hi]
  simp

/-- What a comparison of a remainder says about it. -/
def holds (isEq : Bool) (value r : Int) : Bool := if isEq then decide (r = value) else decide (r ≠ value)

/-- A comparison `==` or `!=`, as it is written. -/
def eqOp (isEq : Bool) : CmpOp := if isEq then .eq else .ne

theorem rel_eqOp (isEq : Bool) (r value : Int) : rel (eqOp isEq) (r : Rat) (value : Rat) = holds isEq value r := by
  cases isEq <;> simp [eqOp, rel, holds, Rat.intCast_inj]

theorem mod_numeric (hR : Remainders S) {env : Env V} {l r : Expr} {i m : Int} (hm : 2 ≤ m) (hl : Integral S env l i) (hr : Integral S env r m) :
    Integral S env (.bin .mod l r) (i % m) := by
  obtain ⟨v, h1, h2⟩ := hl
  obtain ⟨w, h3, h4⟩ := hr
  obtain ⟨u, h5, h6⟩ := hR.mod hm h2 h4
  exact ⟨u, by rw [eval]; simp only [h1, h3, h5], h6⟩

/-- `x` compares `e % k` with a number, where `k` is `m`. -/
def ComparesMod (S : NumSem V) (m : Int) (e x : Expr) : Prop :=
  ∃ op k n, (op = .eq ∨ op = .ne) ∧ (∀ env, Integral S env k m) ∧ (x = .compare (.bin .mod e k) [(op, n)] ∨ x = .compare n [(op, .bin .mod e k)])

/-- The parts of a comparison of a remainder. -/
structure SoundCmp (S : NumSem V) (c : ModCmp) (x : Expr) : Prop where
  two : 2 ≤ c.modulo
  low : 0 ≤ c.value
  high : c.value < c.modulo
  truth : ∀ env i, Integral S env c.expr i → truthOf S.toSem env x = .ok (holds c.isEq c.value (i % c.modulo))
  part : ComparesMod S c.modulo c.expr x

theorem holds_two {isEq : Bool} {value i : Int} (h0 : 0 ≤ value) (h2 : value < 2) (hf : isEq = false) : holds isEq value (i % 2) = holds true (1 - value) (i % 2) := by
  subst hf
  simp only [holds, Bool.false_eq_true, if_false, if_true, decide_eq_decide]
  omega

theorem modCmpOf_sound (hS : Numbers S) (hR : Remainders S) {left n : Expr} {isEq : Bool} {v : V} {c : ModCmp} (hv : IsNum S v)
    (hn : ∀ env, eval S.toSem env n = .ok v) (h : modCmpOf S left isEq v = .ok (some c)) :
    SoundCmp S c (.compare left [(eqOp isEq, n)]) ∧ SoundCmp S c (.compare n [(eqOp isEq, left)]) := by
  unfold modCmpOf at h
  split at h
  · rename_i l r
    split at h
    · cases h
    · cases h
    · rename_i m hm
      obtain ⟨hm1, hm2⟩ := number_some hm
      simp only at h
      split at h
      · cases h
      · rename_i hc
        simp only [not_or, Bool.not_eq_false] at hc
        obtain ⟨c1, c2, c3, c4, c5⟩ := hc
        have hmv := isInt_val hR c1 hm1
        have hvv := isInt_val hR c3 hv
        generalize (S.val m).num = M at *
        generalize (S.val v).num = W at *
        have key : ∀ env i, Integral S env l i →
            truthOf S.toSem env (.compare (.bin .mod l r) [(eqOp isEq, n)]) = .ok (holds isEq W (i % M)) ∧
            truthOf S.toSem env (.compare n [(eqOp isEq, .bin .mod l r)]) = .ok (holds isEq W (i % M)) := by
          intro env i hi
          have h1 : Integral S env (.bin .mod l r) (i % M) := mod_numeric hR (by omega) hi ⟨m, hm2 env, hmv⟩
          have h2 : Integral S env n W := ⟨v, hn env, hvv⟩
          have hp : plain (eqOp isEq) = true := by cases isEq <;> rfl
          constructor
          · rw [truthOf_compare hS hp h1 h2, rel_eqOp]
          · rw [truthOf_compare hS hp h2 h1, rel_eqOp]
            cases isEq <;> simp [holds, eq_comm]
        have hpart1 : ComparesMod S M l (.compare (.bin .mod l r) [(eqOp isEq, n)]) :=
          ⟨eqOp isEq, r, n, by cases isEq <;> simp [eqOp], fun env => ⟨m, hm2 env, hmv⟩, .inl rfl⟩
        have hpart2 : ComparesMod S M l (.compare n [(eqOp isEq, .bin .mod l r)]) :=
          ⟨eqOp isEq, r, n, by cases isEq <;> simp [eqOp], fun env => ⟨m, hm2 env, hmv⟩, .inr rfl⟩
        split at h
        · rename_i hc
          obtain ⟨rfl, hf⟩ := hc
          cases h
          refine ⟨⟨by simp only; omega, by simp only; omega, by simp only; omega, fun env i hi => ?_, hpart1⟩,
            ⟨by simp only; omega, by simp only; omega, by simp only; omega, fun env i hi => ?_, hpart2⟩⟩
          · rw [(key env i hi).1, holds_two (by omega) (by omega) hf]
          · rw [(key env i hi).2, holds_two (by omega) (by omega) hf]
        · cases h
          exact ⟨⟨by simp only; omega, by simp only; omega, by simp only; omega, fun env i hi => (key env i hi).1, hpart1⟩,
            ⟨by simp only; omega, by simp only; omega, by simp only; omega, fun env i hi => (key env i hi).2, hpart2⟩⟩
  · cases h

theorem modCmp_sound (hS : Numbers S) (hR : Remainders S) {left right : Expr} {isEq : Bool} {c : ModCmp} (h : modCmp S left isEq right = .ok (some c)) :
    SoundCmp S c (.compare left [(eqOp isEq, right)]) := by
  unfold modCmp at h
  split at h
  · cases h
  · rename_i l hl
    split at h
    · cases h
    · rename_i r hr
      split at h
      · exact (modCmpOf_sound hS hR (number_some hl).1 (number_some hl).2 h).2
      · exact (modCmpOf_sound hS hR (number_some hr).1 (number_some hr).2 h).1
      · cases h

theorem equalityOf_eq {x l r : Expr} {isEq : Bool} (h : equalityOf x = some (l, isEq, r)) : x = .compare l [(eqOp isEq, r)] := by
  unfold equalityOf at h
  split at h <;> first | (cases h; done) | (cases h; rfl)

theorem modCmps_sound (hS : Numbers S) (hR : Remainders S) {x : Expr} {y z : Expr × Bool × Expr} {a b : ModCmp} (hx : conjunctionOf x = some (y, z))
    (h : modCmps S y z = .ok (some (a, b))) : a.modulo = b.modulo ∧ ∃ u w, x = .boolOp false [u, w] ∧ SoundCmp S a u ∧ SoundCmp S b w := by
  unfold conjunctionOf at hx
  split at hx
  · rename_i u w
    split at hx
    · rename_i y' z' h1 h2
      cases hx
      obtain ⟨l1, e1, r1⟩ := y
      obtain ⟨l2, e2, r2⟩ := z
      unfold modCmps at h
      split at h
      · cases h
      · rename_i ra ha
        split at h
        · cases h
        · rename_i rb hb
          split at h
          · rename_i a' b'
            split at h
            · rename_i hm
              cases h
              refine ⟨hm, u, w, rfl, ?_, ?_⟩
              · rw [equalityOf_eq h1]; exact modCmp_sound hS hR ha
              · rw [equalityOf_eq h2]; exact modCmp_sound hS hR hb
            · cases h
          · cases h
    · cases hx
  · cases hx

/-! ### Sets of remainders -/

/-- What a conjunction of comparisons of two remainders says. -/
def both (eq1 : Bool) (v1 : Int) (eq2 : Bool) (v2 : Int) (a b : Int) : Bool := holds eq1 v1 a && holds eq2 v2 b

theorem mem_possible {m : Int} {isEq : Bool} {v a : Int} (h0 : 0 ≤ v) (h1 : v < m) :
    a ∈ possible m isEq v ↔ 0 ≤ a ∧ a < m ∧ holds isEq v a = true := by
  unfold possible
  cases isEq
  · simp only [Bool.false_eq_true, if_false, List.mem_filter, List.mem_map, List.mem_range, bne_iff_ne, holds, decide_eq_true_eq]
    constructor
    · rintro ⟨⟨n, hn, rfl⟩, hne⟩
      simp only [Int.ofNat_eq_natCast] at hne ⊢
      omega
    · rintro ⟨h2, h3, h4⟩
      exact ⟨⟨a.toNat, by omega, by simp only [Int.ofNat_eq_natCast]; omega⟩, h4⟩
  · simp only [if_true, List.mem_singleton, holds, decide_eq_true_eq]
    constructor
    · rintro rfl; omega
    · omega

theorem addTo_mem {α : Type} [BEq α] [LawfulBEq α] {s : List α} {x y : α} : y ∈ addTo s x ↔ y ∈ s ∨ y = x := by
  unfold addTo
  split
  · rename_i h
    have : x ∈ s := by simpa using h
    constructor
    · exact .inl
    · rintro (h | rfl) <;> assumption
  · simp

theorem addTo_nodup {α : Type} [BEq α] [LawfulBEq α] {s : List α} {x : α} (h : s.Nodup) : (addTo s x).Nodup := by
  unfold addTo
  split
  · exact h
  · rename_i hx
    rw [List.nodup_append]
    refine ⟨h, by simp, ?_⟩
    intro a ha b hb
    rw [List.mem_singleton] at hb
    subst hb
    rintro rfl
    exact hx (by simpa using ha)

theorem updateSets_spec {m v1 v2 : Int} {eq1 eq2 : Bool} {s : List (Int × Int)} :
    (s.Nodup → (updateSets m s eq1 v1 eq2 v2).Nodup) ∧
    ∀ p, p ∈ updateSets m s eq1 v1 eq2 v2 ↔ p ∈ s ∨ (p.1 ∈ possible m eq1 v1 ∧ p.2 ∈ possible m eq2 v2) := by
  have inner : ∀ (ws : List Int) (v : Int) (s : List (Int × Int)), (s.Nodup → (ws.foldl (fun s w => addTo s (v, w)) s).Nodup) ∧
      ∀ p, p ∈ ws.foldl (fun s w => addTo s (v, w)) s ↔ p ∈ s ∨ (p.1 = v ∧ p.2 ∈ ws) := by
    intro ws v
    induction ws with
    | nil => intro s; exact ⟨id, fun p => by simp⟩
    | cons w ws ih =>
      intro s
      obtain ⟨h1, h2⟩ := ih (addTo s (v, w))
      refine ⟨fun h => h1 (addTo_nodup h), fun p => ?_⟩
      rw [List.foldl_cons, h2, addTo_mem, List.mem_cons, or_assoc]
      constructor
      · rintro (h | rfl | h)
        · exact .inl h
        · exact .inr ⟨rfl, .inl rfl⟩
        · exact .inr ⟨h.1, .inr h.2⟩
      · rintro (h | ⟨h, h' | h'⟩)
        · exact .inl h
        · exact .inr (.inl (Prod.ext h h'))
        · exact .inr (.inr ⟨h, h'⟩)
  have outer : ∀ (vs ws : List Int) (s : List (Int × Int)), (s.Nodup → (vs.foldl (fun s v => ws.foldl (fun s w => addTo s (v, w)) s) s).Nodup) ∧
      ∀ p, p ∈ vs.foldl (fun s v => ws.foldl (fun s w => addTo s (v, w)) s) s ↔ p ∈ s ∨ (p.1 ∈ vs ∧ p.2 ∈ ws) := by
    intro vs ws
    induction vs with
    | nil => intro s; exact ⟨id, fun p => by simp⟩
    | cons v vs ih =>
      intro s
      obtain ⟨h1, h2⟩ := ih (ws.foldl (fun s w => addTo s (v, w)) s)
      obtain ⟨h3, h4⟩ := inner ws v s
      refine ⟨fun h => h1 (h3 h), fun p => ?_⟩
      rw [List.foldl_cons, h2, h4, List.mem_cons, or_assoc, or_and_right]
  exact outer _ _ s

/-- As many different remainders as there are, are all. -/
theorem all_of_length {m : Int} {l : List Int} (hm : 0 ≤ m) (hn : l.Nodup) (hr : ∀ a ∈ l, 0 ≤ a ∧ a < m) (hl : (l.length : Int) = m) {k : Int}
    (hk : 0 ≤ k ∧ k < m) : k ∈ l := by
  have hsub : l ⊆ (List.range m.toNat).map Int.ofNat := by
    intro a ha
    have := hr a ha
    exact List.mem_map.2 ⟨a.toNat, List.mem_range.2 (by omega), by simp only [Int.ofNat_eq_natCast]; omega⟩
  have hperm : l.Perm ((List.range m.toNat).map Int.ofNat) :=
    (List.subperm_of_subset hn hsub).perm_of_length_le (by simp; omega)
  exact hperm.mem_iff.2 (List.mem_map.2 ⟨k.toNat, List.mem_range.2 (by omega), by simp only [Int.ofNat_eq_natCast]; omega⟩)

/-- As many different remainders as there are besides one, are all besides that. -/
theorem others_of_length {m v : Int} {l : List Int} (hv : 0 ≤ v ∧ v < m) (hn : l.Nodup) (hr : ∀ a ∈ l, 0 ≤ a ∧ a < m) (hne : v ∉ l)
    (hl : (l.length : Int) = m - 1) {k : Int} (hk : 0 ≤ k ∧ k < m) (hkv : k ≠ v) : k ∈ l := by
  have := all_of_length (m := m) (l := v :: l) (by omega) (List.nodup_cons.2 ⟨hne, hn⟩) (by
    intro a ha
    rcases List.mem_cons.1 ha with rfl | ha
    · exact hv
    · exact hr a ha) (by simp only [List.length_cons]; omega) hk
  rcases List.mem_cons.1 this with h | h
  · exact absurd h hkv
  · exact h

theorem sizeAt_list {s : List (Int × Int)} (hs : s.Nodup) (v : Int) : ∃ l : List Int, l.Nodup ∧ l.length = sizeAt s v ∧ ∀ b, b ∈ l ↔ (v, b) ∈ s := by
  refine ⟨(s.filter (·.1 == v)).map (·.2), ?_, by simp [sizeAt], fun b => ?_⟩
  · refine List.Nodup.map_on ?_ (hs.filter _)
    intro x hx y hy hxy
    have h1 := (List.mem_filter.1 hx).2
    have h2 := (List.mem_filter.1 hy).2
    simp only [beq_iff_eq] at h1 h2
    exact Prod.ext (h1.trans h2.symm) hxy
  · simp only [List.mem_map, List.mem_filter, beq_iff_eq]
    constructor
    · rintro ⟨⟨a, b⟩, ⟨h1, rfl⟩, rfl⟩; exact h1
    · intro h; exact ⟨(v, b), ⟨h, rfl⟩, rfl⟩

/-! ### Pairs -/

/-- `x` is a conjunction of comparisons of the remainders of `l` and `r` by `m`, in either order. -/
def IsPair (S : NumSem V) (m : Int) (l r x : Expr) : Prop :=
  ∃ a b, x = .boolOp false [a, b] ∧ ((ComparesMod S m l a ∧ ComparesMod S m r b) ∨ (ComparesMod S m r a ∧ ComparesMod S m l b))

/-- What an operand says about the two remainders. -/
def Means (S : NumSem V) (p : ModPairs) (x : Expr) (D : Int → Int → Bool) : Prop :=
  ∀ env i j, Integral S env p.left i → Integral S env p.right j → truthOf S.toSem env x = .ok (D (i % p.modulo) (j % p.modulo))

/-- A set of pairs of remainders for which some operand holds. -/
def Covered (S : NumSem V) (p : ModPairs) (ok : ModKind → Prop) (s : List (Int × Int)) : Prop :=
  s.Nodup ∧ ∀ q ∈ s, (0 ≤ q.1 ∧ q.1 < p.modulo) ∧ (0 ≤ q.2 ∧ q.2 < p.modulo) ∧ ∃ nk ∈ p.pairs, ok nk.2 ∧ ∃ D, Means S p nk.1 D ∧ D q.1 q.2 = true

/-- What is known about the pairs that are collected. -/
structure PairsOk (S : NumSem V) (values : List Expr) (p : ModPairs) : Prop where
  two : 2 ≤ p.modulo
  pairs : ∀ nk ∈ p.pairs, nk.1 ∈ values ∧ IsPair S p.modulo p.left p.right nk.1 ∧ ∃ D, Means S p nk.1 D ∧
    (nk.2 = .equality → ∀ a b, D a b = true → a = b) ∧ (nk.2 = .inequality → ∀ a b, D a b = true → a ≠ b)
  eqs : p.forEquality.Nodup ∧ ∀ v ∈ p.forEquality, (0 ≤ v ∧ v < p.modulo) ∧ ∃ nk ∈ p.pairs, nk.2 = .equality ∧ ∃ D, Means S p nk.1 D ∧ D v v = true
  ineqs : Covered S p (· = .inequality) p.forInequality
  apart : ∀ q ∈ p.forInequality, q.1 ≠ q.2
  trues : Covered S p (fun _ => True) p.forTrue

theorem means_congr {p q : ModPairs} {x : Expr} {D : Int → Int → Bool} (h : Means S p x D) (h1 : q.left = p.left) (h2 : q.right = p.right)
    (h3 : q.modulo = p.modulo) : Means S q x D := by
  unfold Means
  rw [h1, h2, h3]
  exact h

theorem covered_add {p q : ModPairs} {ok : ModKind → Prop} {s : List (Int × Int)} {x : Expr} {k : ModKind} {eq1 eq2 : Bool} {v1 v2 : Int}
    (h : Covered S p ok s) (h1 : q.left = p.left) (h2 : q.right = p.right) (h3 : q.modulo = p.modulo) (h4 : q.pairs = p.pairs ++ [(x, k)])
    (hx : Means S p x (both eq1 v1 eq2 v2)) (r1 : 0 ≤ v1 ∧ v1 < p.modulo) (r2 : 0 ≤ v2 ∧ v2 < p.modulo) (hk : ok k) :
    Covered S q ok (updateSets p.modulo s eq1 v1 eq2 v2) := by
  obtain ⟨hn, hm⟩ := updateSets_spec (m := p.modulo) (v1 := v1) (v2 := v2) (eq1 := eq1) (eq2 := eq2) (s := s)
  refine ⟨hn h.1, fun z hz => ?_⟩
  rw [h3]
  rcases (hm z).1 hz with hz | ⟨ha, hb⟩
  · obtain ⟨a1, a2, nk, hnk, a3, D, a4, a5⟩ := h.2 z hz
    exact ⟨a1, a2, nk, by rw [h4]; exact List.mem_append_left _ hnk, a3, D, means_congr a4 h1 h2 h3, a5⟩
  · obtain ⟨b1, b2, b3⟩ := (mem_possible r1.1 r1.2).1 ha
    obtain ⟨c1, c2, c3⟩ := (mem_possible r2.1 r2.2).1 hb
    exact ⟨⟨b1, b2⟩, ⟨c1, c2⟩, (x, k), by rw [h4]; simp, hk, _, means_congr hx h1 h2 h3, by simp [both, b3, c3]⟩

theorem covered_keep {p q : ModPairs} {ok : ModKind → Prop} {s : List (Int × Int)} {x : Expr} {k : ModKind}
    (h : Covered S p ok s) (h1 : q.left = p.left) (h2 : q.right = p.right) (h3 : q.modulo = p.modulo) (h4 : q.pairs = p.pairs ++ [(x, k)]) :
    Covered S q ok s := by
  refine ⟨h.1, fun z hz => ?_⟩
  obtain ⟨a1, a2, nk, hnk, a3, D, a4, a5⟩ := h.2 z hz
  rw [h3]
  exact ⟨a1, a2, nk, by rw [h4]; exact List.mem_append_left _ hnk, a3, D, means_congr a4 h1 h2 h3, a5⟩

theorem update_fields (p : ModPairs) (eq1 : Bool) (v1 : Int) (eq2 : Bool) (v2 : Int) (x : Expr) :
    (p.update eq1 v1 eq2 v2 x).left = p.left ∧ (p.update eq1 v1 eq2 v2 x).right = p.right ∧ (p.update eq1 v1 eq2 v2 x).modulo = p.modulo ∧
    (p.update eq1 v1 eq2 v2 x).forTrue = updateSets p.modulo p.forTrue eq1 v1 eq2 v2 := by
  unfold ModPairs.update
  simp only
  repeat' split
  all_goals refine ⟨?_, ?_, ?_, ?_⟩ <;> first | rfl | trivial

theorem both_true {eq1 eq2 : Bool} {v1 v2 a b : Int} (h : both eq1 v1 eq2 v2 a b = true) : (if eq1 then a = v1 else a ≠ v1) ∧ (if eq2 then b = v2 else b ≠ v2) := by
  simp only [both, Bool.and_eq_true, holds] at h
  cases eq1 <;> cases eq2 <;> simpa using h

theorem update_ok {values : List Expr} {p : ModPairs} (hp : PairsOk S values p) {eq1 eq2 : Bool} {v1 v2 : Int} {x : Expr} (hx : x ∈ values)
    (hpair : IsPair S p.modulo p.left p.right x) (hm : Means S p x (both eq1 v1 eq2 v2)) (r1 : 0 ≤ v1 ∧ v1 < p.modulo) (r2 : 0 ≤ v2 ∧ v2 < p.modulo) :
    PairsOk S values (p.update eq1 v1 eq2 v2 x) := by
  obtain ⟨h1, h2, h3, h4⟩ := update_fields p eq1 v1 eq2 v2 x
  have hpairs : ∃ k, (p.update eq1 v1 eq2 v2 x).pairs = p.pairs ++ [(x, k)] ∧
      (k = .equality → eq1 = true ∧ eq2 = true ∧ v1 = v2) ∧
      (k = .inequality → (eq1 = true ∧ eq2 = true ∧ v1 ≠ v2) ∨ (¬ (eq1 = true ∧ eq2 = true) ∧ (eq1 = true ∨ eq2 = true) ∧ v1 = v2)) ∧
      (p.update eq1 v1 eq2 v2 x).forEquality = (if k = .equality then addTo p.forEquality v1 else p.forEquality) ∧
      (p.update eq1 v1 eq2 v2 x).forInequality = (if k = .inequality then updateSets p.modulo p.forInequality eq1 v1 eq2 v2 else p.forInequality) := by
    unfold ModPairs.update
    simp only
    split
    · rename_i hc
      exact ⟨.equality, rfl, fun _ => hc, (fun h => nomatch h), rfl, rfl⟩
    · rename_i hc
      split
      · rename_i hc'
        refine ⟨.inequality, rfl, (fun h => nomatch h), fun _ => ?_, rfl, rfl⟩
        rcases hc' with ⟨a, b⟩ | ⟨a, b⟩
        · exact .inl ⟨a, b, fun e => hc ⟨a, b, e⟩⟩
        · exact .inr ⟨fun hh => hc ⟨hh.1, hh.2, b⟩, a, b⟩
      · exact ⟨.other, rfl, (fun h => nomatch h), (fun h => nomatch h), rfl, rfl⟩
  obtain ⟨k, hk, ke, ki, hfe, hfi⟩ := hpairs
  have hdiff : k = .inequality → ∀ a b, both eq1 v1 eq2 v2 a b = true → a ≠ b := by
    intro e a b hab
    have hb := both_true hab
    rcases ki e with ⟨rfl, rfl, hne⟩ | ⟨hne, hor, rfl⟩
    · simp only [if_true] at hb
      rw [hb.1, hb.2]; exact hne
    · cases eq1 <;> cases eq2 <;> simp at hne hor hb <;> omega
  refine ⟨by rw [h3]; exact hp.two, ?_, ?_, ?_, ?_, ?_⟩
  · rw [hk, h1, h2, h3]
    intro nk hnk
    rcases List.mem_append.1 hnk with hnk | hnk
    · obtain ⟨a1, a2, D, a3, a4, a5⟩ := hp.pairs nk hnk
      exact ⟨a1, a2, D, means_congr a3 h1 h2 h3, a4, a5⟩
    · rw [List.mem_singleton] at hnk
      subst hnk
      refine ⟨hx, hpair, _, means_congr hm h1 h2 h3, fun e a b hab => ?_, fun e a b hab => ?_⟩
      · obtain ⟨rfl, rfl, rfl⟩ := ke e
        have := both_true hab
        simp only [if_true] at this
        exact this.1.trans this.2.symm
      · exact hdiff e a b hab
  · rw [hfe, hk, h3]
    have hold : ∀ v ∈ p.forEquality, (0 ≤ v ∧ v < p.modulo) ∧ ∃ nk ∈ p.pairs ++ [(x, k)], nk.2 = .equality ∧ ∃ D, Means S (p.update eq1 v1 eq2 v2 x) nk.1 D ∧ D v v = true := by
      intro v hv
      obtain ⟨a1, nk, hnk, a2, D, a3, a4⟩ := hp.eqs.2 v hv
      exact ⟨a1, nk, List.mem_append_left _ hnk, a2, D, means_congr a3 h1 h2 h3, a4⟩
    split
    · rename_i e
      subst e
      obtain ⟨rfl, rfl, rfl⟩ := ke rfl
      refine ⟨addTo_nodup hp.eqs.1, fun v hv => ?_⟩
      rcases addTo_mem.1 hv with hv | rfl
      · exact hold v hv
      · exact ⟨r1, (x, .equality), by simp, rfl, _, means_congr hm h1 h2 h3, by simp [both, holds]⟩
    · exact ⟨hp.eqs.1, hold⟩
  · rw [hfi]
    split
    · rename_i e
      exact covered_add hp.ineqs h1 h2 h3 hk hm r1 r2 e
    · exact covered_keep hp.ineqs h1 h2 h3 hk
  · rw [hfi]
    split
    · rename_i e
      intro q hq
      rcases (updateSets_spec.2 q).1 hq with hq | ⟨ha, hb⟩
      · exact hp.apart q hq
      · exact hdiff e _ _ (by simp [both, ((mem_possible r1.1 r1.2).1 ha).2.2, ((mem_possible r2.1 r2.2).1 hb).2.2])
    · exact hp.apart
  · rw [h4]
    exact covered_add hp.trues h1 h2 h3 hk hm r1 r2 trivial

theorem soundPair {a b : ModCmp} {u w : Expr} (ha : SoundCmp S a u) (hb : SoundCmp S b w) (hab : a.modulo = b.modulo) {env : Env V} {i j : Int}
    (hi : Integral S env a.expr i) (hj : Integral S env b.expr j) :
    truthOf S.toSem env (.boolOp false [u, w]) = .ok (both a.isEq a.value b.isEq b.value (i % a.modulo) (j % a.modulo)) := by
  rw [truthOf_boolOp (bs := [_, _]) (by simp) (show [u, w].map (truthOf S.toSem env) = _ by
    simp only [List.map_cons, List.map_nil, ha.truth env i hi, hb.truth env j hj]; rfl)]
  simp [conn, both, hab]

theorem insertPair_ok {values : List Expr} {a b : ModCmp} {u w : Expr} (ha : SoundCmp S a u) (hb : SoundCmp S b w) (hab : a.modulo = b.modulo)
    (hx : .boolOp false [u, w] ∈ values) : ∀ {ps : List ModPairs}, (∀ p ∈ ps, PairsOk S values p) →
    ∀ p ∈ insertPair a b (.boolOp false [u, w]) ps, PairsOk S values p
  | [], _, p, hp => by
    rw [insertPair, List.mem_singleton] at hp
    subst hp
    refine update_ok ⟨ha.two, (by intro _ h; cases h), ⟨by simp, by intro _ h; cases h⟩, ⟨by simp, by intro _ h; cases h⟩, (by intro _ h; cases h), ⟨by simp, by intro _ h; cases h⟩⟩
      hx ⟨u, w, rfl, .inl ⟨ha.part, by simp only; rw [hab]; exact hb.part⟩⟩ (fun env i j hi hj => soundPair ha hb hab hi hj) ⟨ha.low, ha.high⟩
      ⟨hb.low, by simp only; rw [hab]; exact hb.high⟩
  | q :: ps, hps, p, hp => by
    rw [insertPair] at hp
    have hrest : ∀ p ∈ q :: insertPair a b (.boolOp false [u, w]) ps, PairsOk S values p := by
      intro p hp
      rcases List.mem_cons.1 hp with rfl | hp
      · exact hps _ (by simp)
      · exact insertPair_ok ha hb hab hx (fun p hp => hps p (by simp [hp])) p hp
    split at hp
    · exact hrest p hp
    · rename_i hq
      rw [ne_eq, Decidable.not_not] at hq
      split at hp
      · rename_i hc
        rcases List.mem_cons.1 hp with rfl | hp
        · refine update_ok (hps q (by simp)) hx ⟨u, w, rfl, .inl ?_⟩ (fun env i j hi hj => ?_) ?_ ?_
          · rw [hc.1, hc.2, hq]; exact ⟨ha.part, hab ▸ hb.part⟩
          · rw [hq]; exact soundPair ha hb hab (hc.1 ▸ hi) (hc.2 ▸ hj)
          · rw [hq]; exact ⟨ha.low, ha.high⟩
          · rw [hq, hab]; exact ⟨hb.low, hb.high⟩
        · exact hps p (by simp [hp])
      · split at hp
        · rename_i hc
          rcases List.mem_cons.1 hp with rfl | hp
          · refine update_ok (hps q (by simp)) hx ⟨u, w, rfl, .inr ?_⟩ (fun env i j hi hj => ?_) ?_ ?_
            · rw [hc.1, hc.2, hq]; exact ⟨ha.part, hab ▸ hb.part⟩
            · rw [hq, soundPair ha hb hab (hc.2 ▸ hj) (hc.1 ▸ hi)]
              simp only [both, Bool.and_comm]
            · rw [hq, hab]; exact ⟨hb.low, hb.high⟩
            · rw [hq]; exact ⟨ha.low, ha.high⟩
          · exact hps p (by simp [hp])
        · exact hrest p hp

theorem collectAll_pairs (hS : Numbers S) (hR : Remainders S) {pure : Expr → Bool} {isOr : Bool} {all : List Expr} : ∀ {values : List Expr} {acc acc' : Acc V},
    (∀ x ∈ values, x ∈ all) → (∀ p ∈ acc.pairs, PairsOk S all p) → (isOr = false → acc.pairs = []) →
    collectAll S pure isOr acc values = .ok (some acc') →
    (∀ p ∈ acc'.pairs, PairsOk S all p) ∧ (isOr = false → acc'.pairs = []) ∧ ∀ x ∈ values, pure x = true
  | [], acc, acc', _, hp, hf, h => by cases h; exact ⟨hp, hf, (fun _ h => nomatch h)⟩
  | x :: values, acc, acc', hall, hp, hf, h => by
    rw [collectAll] at h
    split at h
    · rename_i hpure
      split at h
      · cases h
      · rename_i acc1 hc
        have key : (∀ p ∈ acc1.pairs, PairsOk S all p) ∧ (isOr = false → acc1.pairs = []) := by
          unfold collect at hc
          repeat' split at hc
          all_goals first | (cases hc; done) | (cases hc; exact ⟨hp, hf⟩) | skip
          rename_i hconj _ _ _ hmod
          cases hc
          obtain ⟨h1, u, w, rfl, h2, h3⟩ := modCmps_sound hS hR hconj hmod
          exact ⟨insertPair_ok h2 h3 h1 (hall _ (by simp)) hp, (fun h => nomatch h)⟩
        obtain ⟨h1, h2, h3⟩ := collectAll_pairs hS hR (fun y hy => hall y (by simp [hy])) key.1 key.2 h
        refine ⟨h1, h2, fun y hy => ?_⟩
        rcases List.mem_cons.1 hy with rfl | hy
        · exact hpure
        · exact h3 y hy
    · cases h

theorem parens_reads {e : Expr} (hok : e.Ok) (hif : ∀ c a b, e ≠ .ifExp c a b) : Reads 13 (parens e) e := by
  cases e with
  | ifExp c a b => exact absurd rfl (hif c a b)
  | bin | boolOp | unary | compare => exact .paren (reads_text_at hok (Nat.zero_le _))
  | _ => exact reads_text_at hok (Nat.le_refl _)

theorem modText_reads {p : ModPairs} {op : CmpOp} (hl : p.left.Ok ∧ ∀ c a b, p.left ≠ .ifExp c a b) (hr : p.right.Ok ∧ ∀ c a b, p.right ≠ .ifExp c a b) :
    Reads 4 (modText p op) (.compare (.bin .mod p.left (.const (.int p.modulo.toNat))) [(op, .bin .mod p.right (.const (.int p.modulo.toNat)))]) := by
  have h1 : Reads 5 (parens p.left ++ BinOp.tok .mod :: [Tok.lit (.int p.modulo.toNat)]) (.bin .mod p.left (.const (.int p.modulo.toNat))) :=
    Reads.mono (.bin (op := .mod) (by decide) ((parens_reads hl.1 hl.2).mono (by decide)) (Reads.mono (.lit _) (by decide))) (by decide)
  have h2 : Reads 5 (parens p.right ++ BinOp.tok .mod :: [Tok.lit (.int p.modulo.toNat)]) (.bin .mod p.right (.const (.int p.modulo.toNat))) :=
    Reads.mono (.bin (op := .mod) (by decide) ((parens_reads hr.1 hr.2).mono (by decide)) (Reads.mono (.lit _) (by decide))) (by decide)
  have := Reads.compare h1 (.one (op := op) h2)
  rw [List.append_assoc] at this
  exact this

theorem pure_side {builtin : Expr → Bool} {display : Str → Bool} {m : Int} {e x : Expr} (hx : isPure builtin display x = true) (hok : x.Ok)
    (h : ComparesMod S m e x) : e.Ok ∧ ∀ c a b, e ≠ .ifExp c a b := by
  obtain ⟨op, k, n, -, -, rfl | rfl⟩ := h <;>
  simp only [isPure, opsPure, Bool.and_eq_true] at hx <;> simp only [Expr.Ok, OkOps] at hok <;> refine ⟨by simp only [hok], ?_⟩ <;>
    rintro c a b rfl <;> simp [isPure] at hx

theorem pure_sides {builtin : Expr → Bool} {display : Str → Bool} {m : Int} {l r x : Expr} (hx : isPure builtin display x = true) (hok : x.Ok)
    (h : IsPair S m l r x) : (l.Ok ∧ ∀ c a b, l ≠ .ifExp c a b) ∧ (r.Ok ∧ ∀ c a b, r ≠ .ifExp c a b) := by
  obtain ⟨a, b, rfl, h | h⟩ := h <;>
  simp only [isPure, allPure, Bool.and_eq_true] at hx <;> simp only [Expr.Ok, OkAll] at hok
  · exact ⟨pure_side hx.1 hok.2.1 h.1, pure_side hx.2.1 hok.2.2.1 h.2⟩
  · exact ⟨pure_side hx.2.1 hok.2.2.1 h.2, pure_side hx.1 hok.2.1 h.1⟩

/-- Operands joined by `or`, as texts. -/
theorem pairsText_reads {nodes : List Expr} (hne : nodes ≠ []) (h : ∀ x ∈ nodes, x.Ok ∧ 2 ≤ x.prec) :
    ∃ o, Reads 1 (pairsText nodes) o ∧ ∀ env, truthOf S.toSem env o = truthOf S.toSem env (.boolOp true nodes) := by
  match nodes, hne, h with
  | [x], _, h =>
    refine ⟨x, by simpa [pairsText, sepBy] using reads_text_at (h x (by simp)).1 (show 1 ≤ x.prec by have := (h x (by simp)).2; omega), fun env => ?_⟩
    unfold truthOf
    rw [eval, evalBool]
    cases eval S.toSem env x <;> rfl
  | x :: y :: xs, _, h =>
    refine ⟨.boolOp true (x :: y :: xs), ?_, fun env => rfl⟩
    refine reads_boolOp (isOr := true) (ts := (x :: y :: xs).map Expr.text) ?_ (by simp)
    rw [List.forall₂_map_left_iff, List.forall₂_same]
    exact fun z hz => reads_text_at (h z hz).1 (h z hz).2

theorem or_truth {env : Env V} {nodes values : List Expr} {sel : Expr → Bool} (hsel : ∀ x ∈ values, sel x = true ↔ x ∈ nodes) (hsub : ∀ x ∈ nodes, x ∈ values)
    (hne : nodes ≠ []) (ht : ∀ x ∈ nodes, Truthful S env x) :
    truthOf S.toSem env (.boolOp true nodes) = truthOf S.toSem env (.boolOp true (values.filter sel)) := by
  have hmem : ∀ x, x ∈ values.filter sel ↔ x ∈ nodes := fun x => by
    rw [List.mem_filter]
    exact ⟨fun h => (hsel x h.1).1 h.2, fun h => ⟨hsub x h, (hsel x (hsub x h)).2 h⟩⟩
  have hne' : values.filter sel ≠ [] := by
    obtain ⟨x, hx⟩ := List.exists_mem_of_ne_nil _ hne
    exact List.ne_nil_of_mem ((hmem x).2 hx)
  rw [truthOf_boolOp' hne ht, truthOf_boolOp' hne' fun x hx => ht x ((hmem x).1 hx)]
  congr 1
  refine conn_congr fun b => ?_
  simp only [List.mem_map, hmem]

/-- **C97**. A message `simplifiable-test-by-equals` is about operands of an `or`, each of which is a conjunction of comparisons of the
remainders of two expressions by the same number. What it shows as the original has the truth value of these operands if the two
expressions are integers, and so has the suggestion: replacing them by it keeps the truth value of the condition. -/
theorem C97_equivalent (hS : Numbers S) (hR : Remainders S) (builtin : Expr → Bool) (display : Str → Bool) (isOr : Bool) (values : List Expr)
    (hok : ∀ x ∈ values, x.Ok) (msgs : List Msg) (h : check S (isPure builtin display) isOr values = .ok msgs) (m : Msg) (hm : m ∈ msgs)
    (hk : m.kind = .byEquals) :
    isOr = true ∧ ∃ l r n sel, (∀ x ∈ values, sel x = true → IsPair S n l r x) ∧ values.filter sel ≠ [] ∧
      ∃ o' e', ReadsAs 0 m.original o' ∧ ReadsAs 0 m.suggestion e' ∧ ∀ env i j, Integral S env l i → Integral S env r j →
        truthOf S.toSem env o' = truthOf S.toSem env (.boolOp true (values.filter sel)) ∧
        truthOf S.toSem env e' = truthOf S.toSem env (.boolOp true (values.filter sel)) ∧
        ((∀ x ∈ values, ∃ b, truthOf S.toSem env x = .ok b) →
          truthOf S.toSem env (.boolOp true values) = truthOf S.toSem env (.boolOp true (e' :: values.filter fun x => !sel x))) := by
  unfold check at h
  split at h
  · cases h
  · cases h; cases hm
  · rename_i acc hacc
    cases h
    obtain ⟨h1, h2, hpure⟩ := collectAll_pairs hS hR (all := values) (fun x hx => hx) (by intro _ h; cases h) (fun _ => rfl) hacc
    have hb : m ∈ acc.pairs.filterMap byEquals := by
      rcases List.mem_append.1 hm with hm | hm
      · rcases List.mem_append.1 hm with hm | hm
        · obtain ⟨g, -, hg⟩ := List.mem_filterMap.1 hm
          split at hg
          · cases hg
          · unfold suggestion ofBounds at hg
            repeat' split at hg
            all_goals first | (cases hg; done) | (cases hg; simp only at hk; cases hk)
        · exact hm
      · unfold checkMaxMin at hm
        split at hm
        · cases hm
        · rw [List.mem_singleton] at hm
          subst hm
          cases hk
    obtain ⟨p, hp, hmsg⟩ := List.mem_filterMap.1 hb
    have hor : isOr = true := by
      cases isOr
      · rw [h2 rfl] at hp; cases hp
      · rfl
    subst hor
    have hpo := h1 p hp
    refine ⟨rfl, p.left, p.right, p.modulo, ?_⟩
    have hprec : ∀ nk ∈ p.pairs, nk.1.Ok ∧ 2 ≤ nk.1.prec := by
      intro nk hnk
      obtain ⟨h3, ⟨a, b, h4, -⟩, -⟩ := hpo.pairs nk hnk
      exact ⟨hok _ h3, by rw [h4]; simp [Expr.prec, boolPrec]⟩
    -- the common part of the three cases
    have main : ∀ (f : Expr × ModKind → Bool) (sug : List Tok) (e' : Expr) (R : Int → Int → Bool), Reads 4 sug e' →
        m = ⟨.byEquals, pairsText ((p.pairs.filter f).map (·.1)), sug⟩ → p.pairs.filter f ≠ [] →
        (∀ env i j, Integral S env p.left i → Integral S env p.right j → truthOf S.toSem env e' = .ok (R (i % p.modulo) (j % p.modulo))) →
        (∀ a b, 0 ≤ a → a < p.modulo → 0 ≤ b → b < p.modulo → R a b = true → ∃ nk ∈ p.pairs, f nk = true ∧ ∃ D, Means S p nk.1 D ∧ D a b = true) →
        (∀ nk ∈ p.pairs, f nk = true → ∃ D, Means S p nk.1 D ∧ ∀ a b, D a b = true → R a b = true) →
        ∃ sel, (∀ x ∈ values, sel x = true → IsPair S p.modulo p.left p.right x) ∧ values.filter sel ≠ [] ∧
          ∃ o' e', ReadsAs 0 m.original o' ∧ ReadsAs 0 m.suggestion e' ∧ ∀ env i j, Integral S env p.left i → Integral S env p.right j →
            truthOf S.toSem env o' = truthOf S.toSem env (.boolOp true (values.filter sel)) ∧
            truthOf S.toSem env e' = truthOf S.toSem env (.boolOp true (values.filter sel)) ∧
            ((∀ x ∈ values, ∃ b, truthOf S.toSem env x = .ok b) →
              truthOf S.toSem env (.boolOp true values) = truthOf S.toSem env (.boolOp true (e' :: values.filter fun x => !sel x))) := by
      intro f sug e' R hsug hmeq hne hR' hcov hinc
      subst hmeq
      have hmemn : ∀ x, x ∈ (p.pairs.filter f).map (·.1) ↔ ∃ nk ∈ p.pairs, f nk = true ∧ nk.1 = x := by
        intro x; simp only [List.mem_map, List.mem_filter, and_assoc]
      have hnn : (p.pairs.filter f).map (·.1) ≠ [] := by simpa using hne
      have hsub : ∀ x ∈ (p.pairs.filter f).map (·.1), x ∈ values := by
        intro x hx
        obtain ⟨nk, h3, -, rfl⟩ := (hmemn x).1 hx
        exact (hpo.pairs nk h3).1
      have hsel : ∀ x ∈ values, ((p.pairs.filter f).map (·.1)).contains x = true ↔ x ∈ (p.pairs.filter f).map (·.1) := fun x _ => by simp
      have hfne : values.filter (fun x => ((p.pairs.filter f).map (·.1)).contains x) ≠ [] := by
        obtain ⟨x, hx⟩ := List.exists_mem_of_ne_nil _ hnn
        exact List.ne_nil_of_mem (List.mem_filter.2 ⟨hsub x hx, (hsel x (hsub x hx)).2 hx⟩)
      refine ⟨fun x => ((p.pairs.filter f).map (·.1)).contains x, fun x hx hs => ?_, hfne, ?_⟩
      · obtain ⟨nk, h3, -, rfl⟩ := (hmemn x).1 ((hsel x hx).1 hs)
        exact (hpo.pairs nk h3).2.1
      · obtain ⟨o, ho1, ho2⟩ := pairsText_reads (S := S) hnn (by
          intro x hx
          obtain ⟨nk, h3, -, rfl⟩ := (hmemn x).1 hx
          exact hprec nk h3)
        refine ⟨o, e', (ho1.mono (Nat.zero_le _)).as, (hsug.mono (Nat.zero_le _)).as, fun env i j hi hj => ?_⟩
        have htr : ∀ x ∈ (p.pairs.filter f).map (·.1), Truthful S env x := by
          intro x hx
          obtain ⟨nk, h3, -, rfl⟩ := (hmemn x).1 hx
          obtain ⟨-, -, D, hD, -⟩ := hpo.pairs nk h3
          exact ⟨_, hD env i j hi hj⟩
        have hgr := or_truth (env := env) hsel hsub hnn htr
        have heq : truthOf S.toSem env e' = truthOf S.toSem env (.boolOp true (values.filter (fun x => ((p.pairs.filter f).map (·.1)).contains x))) := by
          rw [← hgr, truthOf_boolOp' hnn htr, hR' env i j hi hj]
          congr 1
          rw [Bool.eq_iff_iff, conn_iff, if_pos rfl, List.mem_map]
          have hm0 : p.modulo ≠ 0 := by have := hpo.two; omega
          have hmp : 0 < p.modulo := by have := hpo.two; omega
          constructor
          · intro hr
            obtain ⟨nk, h3, h4, D, hD, h5⟩ := hcov _ _ (Int.emod_nonneg i hm0) (Int.emod_lt_of_pos i hmp) (Int.emod_nonneg j hm0) (Int.emod_lt_of_pos j hmp) hr
            exact ⟨nk.1, (hmemn _).2 ⟨nk, h3, h4, rfl⟩, by rw [truthD_eq (hD env i j hi hj), h5]⟩
          · rintro ⟨x, hx, hxt⟩
            obtain ⟨nk, h3, h4, rfl⟩ := (hmemn x).1 hx
            obtain ⟨D, hD, h5⟩ := hinc nk h3 h4
            rw [truthD_eq (hD env i j hi hj)] at hxt
            exact h5 _ _ hxt
        exact ⟨(ho2 env).trans hgr, heq, fun hall => replace_group hfne hall heq⟩
    have hlit : ∀ env, Integral S env (.const (.int p.modulo.toNat)) p.modulo := by
      intro env
      refine ⟨_, by rw [eval], ?_⟩
      rw [hR.lit]
      have := hpo.two
      rw [show ((p.modulo.toNat : Nat) : Int) = p.modulo by omega]
    have hcmp : ∀ op isEq, op = eqOp isEq → ∀ env i j, Integral S env p.left i → Integral S env p.right j →
        truthOf S.toSem env (.compare (.bin .mod p.left (.const (.int p.modulo.toNat))) [(op, .bin .mod p.right (.const (.int p.modulo.toNat)))]) =
          .ok (holds isEq (j % p.modulo) (i % p.modulo)) := by
      intro op isEq ho env i j hi hj
      subst ho
      rw [truthOf_compare hS (by cases isEq <;> rfl) (mod_numeric hR hpo.two hi (hlit env)) (mod_numeric hR hpo.two hj (hlit env)), rel_eqOp]
    unfold byEquals at hmsg
    split at hmsg
    · rename_i hat
      cases hmsg
      have hall : ∀ a b, 0 ≤ a → a < p.modulo → 0 ≤ b → b < p.modulo → (a, b) ∈ p.forTrue := by
        intro a b h3 h4 h5 h6
        obtain ⟨l, hl1, hl2, hl3⟩ := sizeAt_list hpo.trues.1 a
        have := (List.all_eq_true.1 hat) a.toNat (List.mem_range.2 (by omega))
        simp only [Int.ofNat_eq_natCast, beq_iff_eq] at this
        rw [show ((a.toNat : Nat) : Int) = a by omega, ← hl2] at this
        exact (hl3 b).1 (all_of_length (by omega) hl1 (fun c hc => (hpo.trues.2 _ ((hl3 c).1 hc)).2.1) this ⟨h5, h6⟩)
      refine main (fun _ => true) _ (.const (.bool true)) (fun _ _ => true) ((reads_boolText true).mono (by omega)) (by simp) ?_
        (fun env i j _ _ => truthOf_bool hS env true) ?_ (fun nk hnk _ => ?_)
      · obtain ⟨-, -, nk, hnk, -⟩ := hpo.trues.2 _ (hall 0 0 (by omega) (by have := hpo.two; omega) (by omega) (by have := hpo.two; omega))
        rw [List.filter_eq_self.2 (fun _ _ => rfl)]
        exact List.ne_nil_of_mem hnk
      · intro a b h3 h4 h5 h6 _
        obtain ⟨-, -, nk, hnk, -, D, hD, h7⟩ := hpo.trues.2 _ (hall a b h3 h4 h5 h6)
        exact ⟨nk, hnk, rfl, D, hD, h7⟩
      · obtain ⟨-, -, D, hD, -⟩ := hpo.pairs nk hnk
        exact ⟨D, hD, fun _ _ _ => rfl⟩
    · have hsides : p.pairs ≠ [] → (p.left.Ok ∧ ∀ c a b, p.left ≠ .ifExp c a b) ∧ (p.right.Ok ∧ ∀ c a b, p.right ≠ .ifExp c a b) := by
        intro hne
        obtain ⟨nk, hnk⟩ := List.exists_mem_of_ne_nil _ hne
        obtain ⟨h3, h4, -⟩ := hpo.pairs nk hnk
        exact pure_sides (hpure _ h3) (hok _ h3) h4
      split at hmsg
      · rename_i heq
        cases hmsg
        simp only [ModPairs.toEquality, beq_iff_eq] at heq
        have hall : ∀ a, 0 ≤ a → a < p.modulo → a ∈ p.forEquality := fun a h3 h4 =>
          all_of_length (by have := hpo.two; omega) hpo.eqs.1 (fun c hc => (hpo.eqs.2 c hc).1) heq ⟨h3, h4⟩
        obtain ⟨-, nk0, hnk0, hk0, -⟩ := hpo.eqs.2 0 (hall 0 (by omega) (by have := hpo.two; omega))
        have hs := hsides (List.ne_nil_of_mem hnk0)
        refine main (fun nk => nk.2 == .equality) _ _ (fun a b => holds true b a) (modText_reads (op := .eq) hs.1 hs.2) rfl
          (List.ne_nil_of_mem (List.mem_filter.2 ⟨hnk0, by simp [hk0]⟩)) (hcmp .eq true rfl) ?_ (fun nk hnk hf => ?_)
        · intro a b h3 h4 h5 h6 hab
          simp only [holds, if_true, decide_eq_true_eq] at hab
          subst hab
          obtain ⟨-, nk, hnk, h7, D, hD, h8⟩ := hpo.eqs.2 a (hall a h3 h4)
          exact ⟨nk, hnk, by simp [h7], D, hD, h8⟩
        · obtain ⟨-, -, D, hD, h7, -⟩ := hpo.pairs nk hnk
          refine ⟨D, hD, fun a b hab => ?_⟩
          have := h7 (by simpa using hf) a b hab
          simp [holds, this]
      · split at hmsg
        · rename_i hineq
          cases hmsg
          have hall : ∀ a b, 0 ≤ a → a < p.modulo → 0 ≤ b → b < p.modulo → a ≠ b → (a, b) ∈ p.forInequality := by
            intro a b h3 h4 h5 h6 hab
            obtain ⟨l, hl1, hl2, hl3⟩ := sizeAt_list hpo.ineqs.1 a
            have := (List.all_eq_true.1 hineq) a.toNat (List.mem_range.2 (by omega))
            simp only [Int.ofNat_eq_natCast, beq_iff_eq] at this
            rw [show ((a.toNat : Nat) : Int) = a by omega, ← hl2] at this
            exact (hl3 b).1 (others_of_length ⟨h3, h4⟩ hl1 (fun c hc => (hpo.ineqs.2 _ ((hl3 c).1 hc)).2.1) (fun hc => hpo.apart _ ((hl3 a).1 hc) rfl) this ⟨h5, h6⟩ (Ne.symm hab))
          obtain ⟨-, -, nk0, hnk0, hk0, -⟩ := hpo.ineqs.2 _ (hall 0 1 (by omega) (by have := hpo.two; omega) (by omega) (by have := hpo.two; omega) (by omega))
          have hs := hsides (List.ne_nil_of_mem hnk0)
          refine main (fun nk => nk.2 == .inequality) _ _ (fun a b => holds false b a) (modText_reads (op := .ne) hs.1 hs.2) rfl
            (List.ne_nil_of_mem (List.mem_filter.2 ⟨hnk0, by simp [hk0]⟩)) (hcmp .ne false rfl) ?_ (fun nk hnk hf => ?_)
          · intro a b h3 h4 h5 h6 hab
            simp only [holds, Bool.false_eq_true, if_false, decide_eq_true_eq] at hab
            obtain ⟨-, -, nk, hnk, h7, D, hD, h8⟩ := hpo.ineqs.2 _ (hall a b h3 h4 h5 h6 hab)
            exact ⟨nk, hnk, by simp [h7], D, hD, h8⟩
          · obtain ⟨-, -, D, hD, -, h7⟩ := hpo.pairs nk hnk
            refine ⟨D, hD, fun a b hab => ?_⟩
            have := h7 (by simpa using hf) a b hab
            simp [holds, this]
        · cases hmsg

/-! ### Examples -/

theorem intNum_remainders (R : FoldSem Val) : Remainders (intNum R) where
  mod {a b i m} hm ha hb := by
    obtain ⟨i', hi, hi'⟩ := Option.map_eq_some_iff.1 (show a.asInt.map (fun i : Int => (i : Rat)) = some (i : Rat) from ha)
    obtain ⟨m', hm', hm''⟩ := Option.map_eq_some_iff.1 (show b.asInt.map (fun i : Int => (i : Rat)) = some (m : Rat) from hb)
    rw [Rat.intCast_inj] at hi' hm''
    subst hi' hm''
    refine ⟨.int (i' % m'), ?_, rfl⟩
    refine intSem_binary R hi hm' ?_
    simp only [intBin]
    rw [if_neg (by omega), Int.fmod_eq_emod_of_nonneg _ (by omega)]
  lit _ := rfl
  int {v} h hn := by
    cases v with
    | int i => exact ⟨i, rfl⟩
    | bool b => exact absurd hn.2 (by simp [intNum])
    | _ => cases h

/-- `x % 2 == a and …` -/
def mod2 (e : Expr) (op : CmpOp) (v : Nat) : Expr := cmp1 (.bin .mod e (lit 2)) op (lit v)

/-- The operands of `x % 2 == 0 and a % 2 == 0 or x > 5 or a % 2 == 1 and x % 2 != 0`. -/
def modFirst : Expr := .boolOp false [mod2 exX .eq 0, mod2 exA .eq 0]
def modLast : Expr := .boolOp false [mod2 exA .eq 1, mod2 exX .ne 0]
def modValues : List Expr := [modFirst, cmp1 exX .gt (lit 5), modLast]

/-- `x % 2 == a % 2` is suggested for the first and the third. -/
example : check (intNum restM) (isPure (fun _ => false) (fun _ => false)) true modValues =
    .ok [⟨.byEquals, modFirst.text ++ .sym "or" :: modLast.text,
      [.ident ['x'], .sym "%", .lit (.int 2), .sym "==", .ident ['a'], .sym "%", .lit (.int 2)]⟩] := by
  decide +kernel

/-- C97 applies to it. -/
example (x a b : Int) : ∃ e', ReadsAs 0 [.ident ['x'], .sym "%", .lit (.int 2), .sym "==", .ident ['a'], .sym "%", .lit (.int 2)] e' ∧
    ∃ rest, (∀ y ∈ rest, y ∈ modValues) ∧
      truthOf (intNum restM).toSem (envM x a b) (.boolOp true modValues) = truthOf (intNum restM).toSem (envM x a b) (.boolOp true (e' :: rest)) := by
  obtain ⟨-, l, r, n, sel, h1, h2, o', e', h3, h4, h5⟩ := C97_equivalent restM_numbers (intNum_remainders restM) (fun _ => false) (fun _ => false) true
    modValues (by simp [modValues, modFirst, modLast, Expr.Ok, OkOps, OkAll, cmp1, exX, exA, lit, mod2])
    [⟨.byEquals, modFirst.text ++ .sym "or" :: modLast.text,
      [.ident ['x'], .sym "%", .lit (.int 2), .sym "==", .ident ['a'], .sym "%", .lit (.int 2)]⟩] (by decide +kernel) _ (List.mem_singleton.2 rfl) rfl
  have hlr : ∃ i j, Integral (intNum restM) (envM x a b) l i ∧ Integral (intNum restM) (envM x a b) r j := by
    obtain ⟨y, hy⟩ := List.exists_mem_of_ne_nil _ h2
    obtain ⟨hy, hs⟩ := List.mem_filter.1 hy
    obtain ⟨u, w, he, h⟩ := h1 y hy hs
    have hx : Integral (intNum restM) (envM x a b) exX x := ⟨.int x, rfl, rfl⟩
    have ha : Integral (intNum restM) (envM x a b) exA a := ⟨.int a, rfl, rfl⟩
    have one : ∀ {e k v : Expr} {op : CmpOp} {m : Nat}, ComparesMod (intNum restM) n e (mod2 k op m) → e = k := by
      rintro e k v op m ⟨op, k, v, -, -, h | h⟩ <;> cases h
      rfl
    simp only [modValues, List.mem_cons, List.not_mem_nil, or_false] at hy
    rcases hy with rfl | rfl | rfl
    · cases he
      rcases h with ⟨p, q⟩ | ⟨p, q⟩
      · rw [one (v := exX) p, one (v := exX) q]; exact ⟨_, _, hx, ha⟩
      · rw [one (v := exX) p, one (v := exX) q]; exact ⟨_, _, ha, hx⟩
    · cases he
    · cases he
      rcases h with ⟨p, q⟩ | ⟨p, q⟩
      · rw [one (v := exX) p, one (v := exX) q]; exact ⟨_, _, ha, hx⟩
      · rw [one (v := exX) p, one (v := exX) q]; exact ⟨_, _, hx, ha⟩
  obtain ⟨i, j, hi, hj⟩ := hlr
  refine ⟨e', h4, _, fun y hy => (List.mem_filter.1 hy).1, (h5 (envM x a b) i j hi hj).2.2 ?_⟩
  intro y hy
  simp only [modValues, List.mem_cons, List.not_mem_nil, or_false] at hy
  have one : ∀ (e : Expr) (k : Int) (op : CmpOp) (v : Nat), Integral (intNum restM) (envM x a b) e k → plain op = true →
      ∃ t, truthOf (intNum restM).toSem (envM x a b) (mod2 e op v) = .ok t := fun e k op v hk hop =>
    ⟨_, truthOf_compare restM_numbers hop (mod_numeric (m := 2) (intNum_remainders restM) (by omega) hk ⟨.int 2, rfl, rfl⟩) ⟨.int v, rfl, rfl⟩⟩
  have hx : Integral (intNum restM) (envM x a b) exX x := ⟨.int x, rfl, rfl⟩
  have ha : Integral (intNum restM) (envM x a b) exA a := ⟨.int a, rfl, rfl⟩
  rcases hy with rfl | rfl | rfl
  · obtain ⟨s, h6⟩ := one exX x .eq 0 hx rfl
    obtain ⟨t, h7⟩ := one exA a .eq 0 ha rfl
    exact ⟨_, truthOf_boolOp (bs := [s, t]) (by simp) (by simp [h6, h7])⟩
  · exact ⟨_, rfl⟩
  · obtain ⟨s, h6⟩ := one exA a .eq 1 ha rfl
    obtain ⟨t, h7⟩ := one exX x .ne 0 hx rfl
    exact ⟨_, truthOf_boolOp (bs := [s, t]) (by simp) (by simp [h6, h7])⟩

end Verif.Py.BoolOps
