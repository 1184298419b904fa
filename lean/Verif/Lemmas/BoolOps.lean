import Verif.Model.BoolOps
import Verif.Lemmas.Parse
import Verif.Lemmas.Expr
import Verif.Props.ConstValue
import Mathlib.Data.List.Forall2

/-!
Reading and evaluating conditions joined by `and` and `or`.
-/

namespace Verif.Py.BoolOps

/-- How two numbers compare. -/
def rel : CmpOp → Rat → Rat → Bool
  | .lt, p, q => decide (p < q)
  | .le, p, q => decide (p ≤ q)
  | .eq, p, q => decide (p = q)
  | .ne, p, q => decide (p ≠ q)
  | .ge, p, q => decide (q ≤ p)
  | .gt, p, q => decide (q < p)
  | _, _, _ => false

/-- Comparisons of numbers, other than `is` and `in`. -/
def plain : CmpOp → Bool
  | .lt | .le | .eq | .ne | .ge | .gt => true
  | _ => false

/-- What Python's numbers do: they are compared as numbers, and the text of a number reads as that number. -/
structure Numbers {V : Type} (S : NumSem V) : Prop where
  num_of : ∀ {v}, S.isNumber v = true → S.isBool v = false → ∃ q, S.num v = some q
  cmp : ∀ {op a b p q}, plain op = true → S.num a = some p → S.num b = some q → S.cmp op a b = .ok (S.ofBool (rel op p q))
  truth : ∀ b, S.truth (S.ofBool b) = .ok b
  lit_bool : ∀ b, S.lit (.bool b) = S.ofBool b
  shown : ∀ {v}, S.isNumber v = true → S.isBool v = false →
    ∃ e w, Reads 5 (S.shown v) e ∧ (∀ env, eval S.toSem env e = .ok w) ∧ S.num w = S.num v

/-- `and` and `or` of truth values. -/
def conn (isOr : Bool) (bs : List Bool) : Bool := if isOr then bs.any id else bs.all id

variable {V : Type} {S : NumSem V}

/-- An operand has a truth value, and no exception is raised. -/
def Truthful (S : NumSem V) (env : Env V) (e : Expr) : Prop := ∃ b, truthOf S.toSem env e = .ok b

theorem truthOf_boolOp {env : Env V} {isOr : Bool} : ∀ {es : List Expr} {bs : List Bool}, es ≠ [] →
    es.map (truthOf S.toSem env) = bs.map .ok → truthOf S.toSem env (.boolOp isOr es) = .ok (conn isOr bs)
  | [], _, h, _ => absurd rfl h
  | [e], bs, _, h => by
    cases bs with
    | nil => cases h
    | cons b bs =>
      simp only [List.map_cons, List.map_nil, List.cons.injEq] at h
      obtain ⟨h1, h2⟩ := h
      cases bs with
      | cons => cases h2
      | nil =>
        have : truthOf S.toSem env (.boolOp isOr [e]) = truthOf S.toSem env e := by
          unfold truthOf
          rw [eval, evalBool]
          cases eval S.toSem env e <;> rfl
        rw [this, h1]
        cases isOr <;> simp [conn]
  | e :: f :: es, bs, _, h => by
    cases bs with
    | nil => cases h
    | cons b bs =>
      obtain ⟨h1, h2⟩ := List.cons.inj (h : truthOf S.toSem env e :: (f :: es).map (truthOf S.toSem env) = .ok b :: bs.map .ok)
      have ih := truthOf_boolOp (isOr := isOr) (es := f :: es) (bs := bs) (by simp) h2
      have hev : ∃ v, eval S.toSem env e = .ok v ∧ S.truth v = .ok b := by
        unfold truthOf at h1
        cases he : eval S.toSem env e with
        | error x => rw [he] at h1; cases h1
        | ok v => rw [he] at h1; exact ⟨v, rfl, h1⟩
      obtain ⟨v, hv, hb⟩ := hev
      have key : truthOf S.toSem env (.boolOp isOr (e :: f :: es)) = if b = isOr then .ok b else truthOf S.toSem env (.boolOp isOr (f :: es)) := by
        unfold truthOf
        rw [eval, evalBool]
        simp only [hv, hb]
        by_cases hc : b = isOr
        · simp only [hc, if_true]; rw [hb, hc]
        · simp only [hc, if_false]; rw [eval]
      rw [key, ih]
      cases b <;> cases isOr <;> simp [conn]

theorem truthful_all {env : Env V} : ∀ {es : List Expr}, (∀ x ∈ es, Truthful S env x) → ∃ bs : List Bool, es.map (truthOf S.toSem env) = bs.map .ok
  | [], _ => ⟨[], rfl⟩
  | e :: es, h => by
    obtain ⟨b, hb⟩ := h e (by simp)
    obtain ⟨bs, hbs⟩ := truthful_all (es := es) (fun x hx => h x (by simp [hx]))
    exact ⟨b :: bs, by simp [hb, hbs]⟩

/-- The truth value that an operand has. -/
def truthD (S : NumSem V) (env : Env V) (e : Expr) : Bool := match truthOf S.toSem env e with | .ok b => b | .error _ => false

theorem truthD_eq {env : Env V} {e : Expr} {b : Bool} (h : truthOf S.toSem env e = .ok b) : truthD S env e = b := by simp [truthD, h]

theorem truthOf_boolOp' {env : Env V} {isOr : Bool} {es : List Expr} (hne : es ≠ []) (h : ∀ x ∈ es, Truthful S env x) :
    truthOf S.toSem env (.boolOp isOr es) = .ok (conn isOr (es.map (truthD S env))) := by
  refine truthOf_boolOp hne ?_
  rw [List.map_map]
  refine List.map_congr_left fun x hx => ?_
  obtain ⟨b, hb⟩ := h x hx
  simp [hb, truthD_eq hb]

theorem conn_perm {isOr : Bool} (f : Expr → Bool) (sel : Expr → Bool) (es : List Expr) :
    conn isOr (es.map f) = conn isOr (conn isOr ((es.filter sel).map f) :: (es.filter fun x => !sel x).map f) := by
  cases isOr
  · simp only [conn, Bool.false_eq_true, if_false, List.all_cons, id, List.all_map, Function.id_comp]
    rw [Bool.eq_iff_iff]
    simp only [List.all_eq_true, Bool.and_eq_true, List.mem_filter, Bool.not_eq_true']
    constructor
    · exact fun h => ⟨fun x hx => h x hx.1, fun x hx => h x hx.1⟩
    · intro h x hx
      cases hs : sel x
      · exact h.2 x ⟨hx, hs⟩
      · exact h.1 x ⟨hx, hs⟩
  · simp only [conn, if_true, List.any_cons, id, List.any_map, Function.id_comp]
    rw [Bool.eq_iff_iff]
    simp only [List.any_eq_true, Bool.or_eq_true, List.mem_filter, Bool.not_eq_true']
    constructor
    · rintro ⟨x, hx, hf⟩
      cases hs : sel x
      · exact .inr ⟨x, ⟨hx, hs⟩, hf⟩
      · exact .inl ⟨x, ⟨hx, hs⟩, hf⟩
    · rintro (⟨x, ⟨hx, -⟩, hf⟩ | ⟨x, ⟨hx, -⟩, hf⟩) <;> exact ⟨x, hx, hf⟩

/-- Replacing some of the operands by an equivalent one. -/
theorem replace_group {env : Env V} {isOr : Bool} {values : List Expr} {sel : Expr → Bool} {e' : Expr} (hsel : values.filter sel ≠ [])
    (h : ∀ x ∈ values, Truthful S env x) (he : truthOf S.toSem env e' = truthOf S.toSem env (.boolOp isOr (values.filter sel))) :
    truthOf S.toSem env (.boolOp isOr values) = truthOf S.toSem env (.boolOp isOr (e' :: values.filter fun x => !sel x)) := by
  have h1 := truthOf_boolOp' (isOr := isOr) hsel (fun x hx => h x (List.mem_filter.1 hx).1)
  rw [h1] at he
  rw [truthOf_boolOp' (isOr := isOr) (fun e => hsel (by rw [e]; rfl)) h, truthOf_boolOp' (by simp) (by
    intro x hx
    rcases List.mem_cons.1 hx with rfl | hx
    · exact ⟨_, he⟩
    · exact h x (List.mem_filter.1 hx).1), List.map_cons, truthD_eq he, ← conn_perm]

/-! ### Comparisons -/

/-- The value of an expression is a number. -/
def Numeric (S : NumSem V) (env : Env V) (e : Expr) (p : Rat) : Prop := ∃ v, eval S.toSem env e = .ok v ∧ S.num v = some p

theorem truthOf_compare (hS : Numbers S) {env : Env V} {l r : Expr} {op : CmpOp} {p q : Rat} (hop : plain op = true) (hl : Numeric S env l p)
    (hr : Numeric S env r q) : truthOf S.toSem env (.compare l [(op, r)]) = .ok (rel op p q) := by
  obtain ⟨v, h1, h2⟩ := hl
  obtain ⟨w, h3, h4⟩ := hr
  unfold truthOf
  rw [eval]
  simp only [h1, evalCmp, h3, hS.cmp hop h2 h4, hS.truth]

/-- A value that counts as a number in the code. -/
def IsNum (S : NumSem V) (v : V) : Prop := S.isNumber v = true ∧ S.isBool v = false

theorem isNum_num (hS : Numbers S) {v : V} (h : IsNum S v) : S.num v = some (S.val v) := by
  obtain ⟨q, hq⟩ := hS.num_of h.1 h.2
  simp [NumSem.val, hq]

theorem number_some {e : Expr} {v : V} (h : number S e = .ok (some v)) : IsNum S v ∧ ∀ env, eval S.toSem env e = .ok v := by
  unfold number at h
  split at h
  · cases h
  · cases h
  · rename_i w hw
    split at h
    · rename_i hn
      cases h
      simp only [Bool.and_eq_true, Bool.not_eq_true'] at hn
      exact ⟨⟨hn.1, hn.2⟩, fun env => C33_value S.toFoldSem env e v hw⟩
    · cases h

theorem number_numeric (hS : Numbers S) {e : Expr} {v : V} (h : number S e = .ok (some v)) (env : Env V) : Numeric S env e (S.val v) :=
  ⟨v, (number_some h).2 env, isNum_num hS (number_some h).1⟩

/-- The text of a number reads as it. -/
theorem shown_reads (hS : Numbers S) {v : V} (h : IsNum S v) : ∃ n, Reads 5 (S.shown v) n ∧ ∀ env, Numeric S env n (S.val v) := by
  obtain ⟨e, w, h1, h2, h3⟩ := hS.shown h.1 h.2
  exact ⟨e, h1, fun env => ⟨w, h2 env, h3.trans (isNum_num hS h)⟩⟩

/-- A comparison with a number, as text. -/
theorem compare_reads (hS : Numbers S) {t : List Tok} {e : Expr} (ht : Reads 5 t e) {op : CmpOp} (hop : plain op = true) {v : V}
    (hv : IsNum S v) : ∃ c, Reads 4 (t ++ (op.toks ++ S.shown v)) c ∧
      ∀ env p, Numeric S env e p → truthOf S.toSem env c = .ok (rel op p (S.val v)) := by
  obtain ⟨n, h1, h2⟩ := shown_reads hS hv
  exact ⟨.compare e [(op, n)], .compare ht (.one h1), fun env p hp => truthOf_compare hS hop hp (h2 env)⟩

theorem reads_boolText (b : Bool) : Reads 13 (boolText b) (.const (.bool b)) := .lit _

theorem truthOf_bool (hS : Numbers S) (env : Env V) (b : Bool) : truthOf S.toSem env (.const (.bool b)) = .ok b := by
  unfold truthOf
  rw [eval]
  simp only [hS.lit_bool, hS.truth]

/-- Several texts joined by `and` or `or`. -/
theorem reads_join {isOr : Bool} : ∀ {ts : List (List Tok)} {es : List Expr}, List.Forall₂ (fun t e => Reads (boolPrec isOr + 1) t e) ts es → es ≠ [] →
    ReadsBool isOr (sepBy (boolTok isOr) ts) es
  | _, _, .nil, h => absurd rfl h
  | _, _, .cons h1 .nil, _ => .one h1
  | _, _, .cons h1 (.cons h2 h3), _ => .cons h1 (reads_join (.cons h2 h3) (by simp))

theorem reads_boolOp {isOr : Bool} {ts : List (List Tok)} {es : List Expr} (h : List.Forall₂ (fun t e => Reads (boolPrec isOr + 1) t e) ts es)
    (hl : 2 ≤ es.length) : Reads (boolPrec isOr) (sepBy (boolTok isOr) ts) (.boolOp isOr es) := by
  have := reads_join h (by rintro rfl; simp at hl)
  match es, hl with
  | v :: w :: vs, _ => exact .boolOp this

end Verif.Py.BoolOps
