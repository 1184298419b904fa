import Verif.Lemmas.BoolMaxMin

/-!
**C96** Suggested uses of `max` and `min` are equivalent, and as many comparisons as possible are joined.
-/

namespace Verif.Py.BoolOps

variable {V : Type} {S : NumSem V}

/-- `q` is the largest or the smallest of some numbers. -/
def IsExtreme (isMax : Bool) (ps : List Rat) (q : Rat) : Prop := q ∈ ps ∧ ∀ p ∈ ps, if isMax then p ≤ q else q ≤ p

/-- `max` and `min` are Python's, and give the largest and the smallest of two or more numbers. -/
def HasExtremes (S : NumSem V) (env : Env V) : Prop := ∀ isMax, ∃ f, env (if isMax then "max".toList else "min".toList) = .ok f ∧
  ∀ vs ps, 2 ≤ vs.length → vs.map S.num = ps.map some → ∃ w q, S.call f vs = .ok w ∧ S.num w = some q ∧ IsExtreme isMax ps q

/-- `x` compares `e` with `s`, in either order. -/
def Side (e x s : Expr) : Prop := ∃ op, isOrder op = true ∧ (x = .compare e [(op, s)] ∨ x = .compare s [(op, e)])

/-- The text of an expression starts with `max(` or `min(` only if it is a call with two arguments at least. -/
def Simple (s : Expr) : Prop := ∀ f ∈ ["max".toList, "min".toList], ¬ BeginsCall f s.text ∨ ∃ as, s = .call (.name f) as ∧ 2 ≤ as.length

/-- An expression is a number, and if it is a call of `max` or `min`, so are the arguments. -/
def Nums (S : NumSem V) (env : Env V) (s : Expr) : Prop :=
  (∃ q, Numeric S env s q) ∧ ∀ f ∈ ["max".toList, "min".toList], ∀ as, s = .call (.name f) as → ∀ a ∈ as, ∃ q, Numeric S env a q

theorem funcName_eq (isMax : Bool) : funcName isMax = if isMax then "max".toList else "min".toList := rfl

theorem funcName_mem (isMax : Bool) : funcName isMax ∈ ["max".toList, "min".toList] := by cases isMax <;> simp [funcName]

/-! ### Numbers -/

/-- The number that an expression is. -/
def numOf (S : NumSem V) (env : Env V) (e : Expr) : Rat := match eval S.toSem env e with | .ok v => S.val v | .error _ => 0

theorem numOf_eq {env : Env V} {e : Expr} {q : Rat} (h : Numeric S env e q) : numOf S env e = q := by
  obtain ⟨v, h1, h2⟩ := h
  simp [numOf, h1, NumSem.val, h2]

theorem numeric_numOf {env : Env V} {e : Expr} (h : ∃ q, Numeric S env e q) : Numeric S env e (numOf S env e) := by
  obtain ⟨q, h⟩ := h
  rw [numOf_eq h]
  exact h

theorem conn_iff {isOr : Bool} {bs : List Bool} : conn isOr bs = true ↔ if isOr then true ∈ bs else false ∉ bs := by
  cases isOr
  · simp only [conn, Bool.false_eq_true, if_false, List.all_eq_true, id]
    constructor
    · intro h hf; exact absurd (h _ hf) (by decide)
    · intro h b hb; cases b
      · exact absurd hb h
      · rfl
  · simp [conn]

theorem conn_congr {isOr : Bool} {bs cs : List Bool} (h : ∀ b, b ∈ bs ↔ b ∈ cs) : conn isOr bs = conn isOr cs := by
  rw [Bool.eq_iff_iff, conn_iff, conn_iff]
  cases isOr <;> simp [h]

theorem conn_flatMap {α : Type} {isOr : Bool} (f : α → List Bool) : ∀ l : List α, conn isOr (l.flatMap f) = conn isOr (l.map fun x => conn isOr (f x))
  | [] => rfl
  | x :: l => by
    rw [List.flatMap_cons, conn_append, conn_flatMap f l, List.map_cons]
    cases isOr <;> simp [conn]

theorem extreme_conn {isOr : Bool} {op : CmpOp} {qs : List Rat} {q : Rat} (hop : isOrder op = true) (h : IsExtreme (usesMax isOr op) qs q) (p : Rat) :
    rel op p q = conn isOr (qs.map (rel op p)) := by
  obtain ⟨h1, h2⟩ := h
  rw [Bool.eq_iff_iff, conn_iff]
  cases op <;> first | (cases hop; done) | skip
  all_goals
    cases isOr <;> simp only [usesMax, isLess, Bool.not_true, Bool.not_false, Bool.and_true, Bool.and_false, Bool.or_true, Bool.or_false,
      Bool.false_eq_true, if_true, if_false] at h2 ⊢ <;>
    simp only [rel, decide_eq_true_eq, List.mem_map, decide_eq_false_iff_not, not_exists, not_and] <;>
    first
    | exact ⟨fun hq => ⟨q, h1, hq⟩, fun ⟨r, hr, hr'⟩ => by have := h2 r hr; grind⟩
    | exact ⟨fun hq r hr hr' => by have := h2 r hr; grind, fun hall => by have := hall q h1; grind⟩

theorem eval_args {env : Env V} : ∀ {as : List Expr}, (∀ a ∈ as, ∃ q, Numeric S env a q) →
    ∃ vs, evalAll S.toSem env as = .ok vs ∧ vs.map S.num = (as.map (numOf S env)).map some ∧ vs.length = as.length
  | [], _ => ⟨[], rfl, rfl, rfl⟩
  | a :: as, h => by
    obtain ⟨vs, h1, h2, h3⟩ := eval_args (as := as) (fun b hb => h b (by simp [hb]))
    obtain ⟨v, h4, h5⟩ := numeric_numOf (h a (by simp))
    exact ⟨v :: vs, by simp [evalAll, h4, h1], by simp [h5, h2], by simp [h3]⟩

theorem extreme_call {env : Env V} (hE : HasExtremes S env) (isMax : Bool) {as : List Expr} (hl : 2 ≤ as.length)
    (h : ∀ a ∈ as, ∃ q, Numeric S env a q) :
    ∃ q, Numeric S env (.call (.name (funcName isMax)) as) q ∧ IsExtreme isMax (as.map (numOf S env)) q := by
  obtain ⟨f, hf, hc⟩ := hE isMax
  obtain ⟨vs, h1, h2, h3⟩ := eval_args h
  obtain ⟨w, q, h4, h5, h6⟩ := hc vs _ (by omega) h2
  refine ⟨q, ⟨w, ?_, h5⟩, h6⟩
  rw [eval, eval, funcName_eq, hf]
  simp only [h1, h4]

/-! ### Arguments -/

/-- The arguments that an expression becomes. -/
def argsOf (isMax : Bool) : Expr → List Expr
  | .call (.name f) as => if f = funcName isMax then as else [.call (.name f) as]
  | s => [s]

theorem dropLastChar_close : ∀ t : List Tok, dropLastChar (t ++ [.sym ")"]) = t
  | [] => rfl
  | [a] => by rw [List.singleton_append, dropLastChar]; rfl
  | a :: b :: t => by
    rw [List.cons_append, List.cons_append, dropLastChar, ← List.cons_append, dropLastChar_close (b :: t)]

theorem call_text (f : Str) (as : List Expr) : (Expr.call (.name f) as).text = .ident f :: .sym "(" :: (textArgs as ++ [.sym ")"]) := by
  simp [Expr.text, wrap, Expr.prec]

theorem argsOf_self {isMax : Bool} {s : Expr} (h : ∀ as, s ≠ .call (.name (funcName isMax)) as) : argsOf isMax s = [s] := by
  unfold argsOf
  split
  · rename_i f as
    rw [if_neg]
    rintro rfl
    exact h _ rfl
  · rfl

theorem argsOf_call (isMax : Bool) (as : List Expr) : argsOf isMax (.call (.name (funcName isMax)) as) = as := by simp [argsOf]

theorem startsWith_call (f : Str) (as : List Expr) : startsWith f (Expr.call (.name f) as).text = true := by
  rw [call_text]
  simp [startsWith]

theorem argText_reads (isMax : Bool) {s : Expr} (hok : s.Ok) (hs : Simple s) :
    ReadsArgs (argText isMax s.text) (argsOf isMax s) ∧ argsOf isMax s ≠ [] := by
  rcases (hs _ (funcName_mem isMax)).imp_left not_begins with h | ⟨as, rfl, hl⟩
  · have : argsOf isMax s = [s] := argsOf_self (by rintro as rfl; rw [startsWith_call] at h; cases h)
    rw [this, argText, h]
    exact ⟨.one (reads_text_at hok (Nat.zero_le _)), by simp⟩
  · rw [argsOf_call, argText, startsWith_call, if_pos rfl, call_text]
    simp only [List.drop_succ_cons, List.drop_zero]
    rw [dropLastChar_close]
    simp only [Expr.Ok] at hok
    exact ⟨reads_textArgs as hok.2, by rintro rfl; simp at hl⟩

theorem argsOf_numeric {env : Env V} (isMax : Bool) {s : Expr} (h : Nums S env s) : ∀ a ∈ argsOf isMax s, ∃ q, Numeric S env a q := by
  by_cases hc : ∃ as, s = .call (.name (funcName isMax)) as
  · obtain ⟨as, rfl⟩ := hc
    rw [argsOf_call]
    exact h.2 _ (funcName_mem isMax) as rfl
  · rw [argsOf_self (fun as e => hc ⟨as, e⟩)]
    intro a ha
    rw [List.mem_singleton] at ha
    exact ha ▸ h.1

theorem argsOf_conn {env : Env V} (hE : HasExtremes S env) {isOr : Bool} {op : CmpOp} (hop : isOrder op = true) {s : Expr} (hs : Simple s)
    (h : Nums S env s) (p : Rat) :
    rel op p (numOf S env s) = conn isOr (((argsOf (usesMax isOr op) s).map (numOf S env)).map (rel op p)) := by
  by_cases hc : ∃ as, s = .call (.name (funcName (usesMax isOr op))) as
  · obtain ⟨as, rfl⟩ := hc
    have hl : 2 ≤ as.length := by
      rcases hs _ (funcName_mem (usesMax isOr op)) with h | ⟨as', he, hl⟩
      · exact absurd (begins_iff.1 (startsWith_call _ as)) h
      · cases he; exact hl
    obtain ⟨q, h1, h2⟩ := extreme_call hE (usesMax isOr op) hl (h.2 _ (funcName_mem _) as rfl)
    rw [argsOf_call, numOf_eq h1]
    exact extreme_conn hop h2 p
  · rw [argsOf_self (fun as e => hc ⟨as, e⟩)]
    simp [conn_one]

theorem readsArgs_append : ∀ {t u : List Tok} {as bs : List Expr}, ReadsArgs t as → as ≠ [] → ReadsArgs u bs → bs ≠ [] →
    ReadsArgs (t ++ .sym "," :: u) (as ++ bs)
  | _, _, _, _, .nil, h, _, _ => absurd rfl h
  | _, _, _, [], .one _, _, _, h' => absurd rfl h'
  | _, _, _, _ :: _, .one h1, _, h2, _ => .cons h1 h2
  | _, _, _, bs, .cons h1 h3, _, h2, h' => by
    have := readsArgs_append h3 (by simp) h2 h'
    rw [List.append_assoc, List.cons_append]
    exact .cons h1 this

theorem readsArgs_sep : ∀ {ts : List (List Tok)} {ass : List (List Expr)}, List.Forall₂ (fun t as => ReadsArgs t as ∧ as ≠ []) ts ass → ass ≠ [] →
    ReadsArgs (sepBy (.sym ",") ts) ass.flatten ∧ ass.flatten ≠ []
  | _, _, .nil, h => absurd rfl h
  | _, _, .cons h1 .nil, _ => by simpa [sepBy] using h1
  | _, _, .cons h1 (.cons h2 h3), _ => by
    obtain ⟨h4, h5⟩ := readsArgs_sep (.cons h2 h3) (by simp)
    rw [List.flatten_cons, sepBy]
    exact ⟨readsArgs_append h1.1 h1.2 h4 h5, by simp [h1.2]⟩

/-! ### Operands -/

theorem notOf_sound {x l r : Expr} {o : CmpOp} (h : notOf S x = some (l, o, r)) : isOrder o = true ∧ x = .compare l [(o, r)] := by
  unfold notOf at h
  split at h
  · rename_i y hy
    subst h
    unfold notNumbers at hy
    repeat' split at hy
    all_goals first | (cases hy; done) | skip
    rename_i hord _ _ _ _
    cases hy
    exact ⟨hord, rfl⟩
  · cases h

theorem switched_ne {o : CmpOp} (h : isOrder o = true) : switched o ≠ o := by cases o <;> first | (cases h; done) | decide

theorem switched_switched (o : CmpOp) : switched (switched o) = o := by cases o <;> rfl

theorem added_side {e s x : Expr} {op : CmpOp} {b : Bool} (h : (s, b) ∈ added S e op x) :
    isOrder op = true ∧ x = (if b then .compare s [(switched op, e)] else .compare e [(op, s)]) ∧ added S e op x = [(s, b)] := by
  unfold added at h ⊢
  split at h
  · rename_i l o r hx
    obtain ⟨h1, rfl⟩ := notOf_sound hx
    rcases List.mem_append.1 h with hm | hm <;> clear h
    · split at hm
      · rename_i hc
        obtain ⟨rfl, rfl⟩ := hc
        rw [List.mem_singleton] at hm
        cases hm
        refine ⟨h1, rfl, ?_⟩
        have : ¬ (s = l ∧ switched o = o) := fun hc => switched_ne h1 hc.2
        simp [this]
      · cases hm
    · split at hm
      · rename_i hc
        obtain ⟨rfl, rfl⟩ := hc
        rw [List.mem_singleton] at hm
        cases hm
        refine ⟨order_switched h1, by rw [if_pos rfl, switched_switched], ?_⟩
        have : ¬ (s = r ∧ o = switched o) := fun hc => switched_ne h1 hc.2.symm
        simp [this]
      · cases hm
  · cases h

theorem truth_added (hS : Numbers S) {env : Env V} {e s x : Expr} {op : CmpOp} {b : Bool} (h : (s, b) ∈ added S e op x) {p q : Rat}
    (hp : Numeric S env e p) (hq : Numeric S env s q) : truthOf S.toSem env x = .ok (rel op p q) := by
  obtain ⟨h1, h2, -⟩ := added_side h
  cases b
  · rw [h2]; exact truthOf_compare hS (order_plain h1) hp hq
  · rw [h2, if_pos rfl, truthOf_compare hS (order_plain (order_switched h1)) hq hp, rel_switched h1]

theorem addedNum_side {e x : Expr} {op : CmpOp} {v : V} {b : Bool} (h : (v, b) ∈ addedNum S e op x) :
    opOf S x = some (e, op, v) ∧ addedNum S e op x = [(v, b)] := by
  unfold addedNum at h ⊢
  split at h
  · rename_i e' o w hx
    split at h
    · rename_i hc
      obtain ⟨rfl, rfl⟩ := hc
      rw [List.mem_singleton] at h
      cases h
      exact ⟨hx, by simp⟩
    · cases h
  · cases h

theorem added_addedNum {e x : Expr} {op : CmpOp} : added S e op x = [] ∨ addedNum S e op x = [] := by
  unfold added addedNum
  cases ho : opOf S x with
  | none => exact .inr rfl
  | some y =>
    have : notOf S x = none := by
      unfold opOf at ho
      split at ho
      · rename_i r hr; subst ho; exact notOf_of_opOf hr
      · cases ho
    simp [this]

/-- The operands that are put together. -/
def joined (S : NumSem V) (e : Expr) (op : CmpOp) (withNum : Bool) (x : Expr) : Bool :=
  !(added S e op x).isEmpty || (withNum && !(addedNum S e op x).isEmpty)

theorem added_length {e x : Expr} {op : CmpOp} : (added S e op x).length = if (added S e op x).isEmpty then 0 else 1 := by
  cases h : added S e op x with
  | nil => rfl
  | cons y l =>
    obtain ⟨s, b⟩ := y
    have := (added_side (show (s, b) ∈ added S e op x by rw [h]; simp)).2.2
    rw [h] at this
    simp only [List.cons.injEq] at this
    simp [this.2]

theorem addedNum_length {e x : Expr} {op : CmpOp} : (addedNum S e op x).length = if (addedNum S e op x).isEmpty then 0 else 1 := by
  cases h : addedNum S e op x with
  | nil => rfl
  | cons y l =>
    obtain ⟨s, b⟩ := y
    have := (addedNum_side (show (s, b) ∈ addedNum S e op x by rw [h]; simp)).2
    rw [h] at this
    simp only [List.cons.injEq] at this
    simp [this.2]

theorem joined_length {e : Expr} {op : CmpOp} {withNum : Bool} : ∀ values : List Expr,
    (values.filter (joined S e op withNum)).length =
      (values.flatMap (added S e op)).length + if withNum then (values.flatMap (addedNum S e op)).length else 0
  | [] => by simp
  | x :: values => by
    have ih := joined_length (withNum := withNum) (e := e) (op := op) values
    rw [List.filter_cons, List.flatMap_cons, List.flatMap_cons, List.length_append, List.length_append]
    have h1 := added_length (S := S) (e := e) (x := x) (op := op)
    have h2 := addedNum_length (S := S) (e := e) (x := x) (op := op)
    have h3 := added_addedNum (S := S) (e := e) (x := x) (op := op)
    unfold joined at ih ⊢
    cases ha : (added S e op x).isEmpty <;> cases hb : (addedNum S e op x).isEmpty <;> cases withNum <;>
      simp_all <;> omega

theorem mem_joined {values : List Expr} {e : Expr} {op : CmpOp} {exprs : List (Expr × Bool)} {num : Option (V × Bool)}
    (he : exprs = values.flatMap (added S e op)) (hn : ∀ n, num = some n → values.flatMap (addedNum S e op) = [n]) :
    (∀ x ∈ values, joined S e op num.isSome x = true → (∃ y ∈ exprs, y ∈ added S e op x) ∨ ∃ n, num = some n ∧ n ∈ addedNum S e op x) ∧
    (∀ y ∈ exprs, ∃ x ∈ values, joined S e op num.isSome x = true ∧ y ∈ added S e op x) ∧
    (∀ n, num = some n → ∃ x ∈ values, joined S e op num.isSome x = true ∧ n ∈ addedNum S e op x) := by
  subst he
  refine ⟨fun x hx hj => ?_, fun y hy => ?_, fun n h => ?_⟩
  · simp only [joined, Bool.or_eq_true, Bool.not_eq_true', Bool.and_eq_true, List.isEmpty_eq_false_iff_exists_mem] at hj
    rcases hj with ⟨y, hy⟩ | ⟨hs, y, hy⟩
    · exact .inl ⟨y, List.mem_flatMap.2 ⟨x, hx, hy⟩, hy⟩
    · obtain ⟨n, h⟩ := Option.isSome_iff_exists.1 hs
      have : y ∈ values.flatMap (addedNum S e op) := List.mem_flatMap.2 ⟨x, hx, hy⟩
      rw [hn n h, List.mem_singleton] at this
      exact .inr ⟨n, h, this ▸ hy⟩
  · obtain ⟨x, hx, hy⟩ := List.mem_flatMap.1 hy
    exact ⟨x, hx, by simp only [joined, Bool.or_eq_true, Bool.not_eq_true', List.isEmpty_eq_false_iff_exists_mem]; exact .inl ⟨y, hy⟩, hy⟩
  · have : n ∈ values.flatMap (addedNum S e op) := by rw [hn n h]; simp
    obtain ⟨x, hx, hy⟩ := List.mem_flatMap.1 this
    refine ⟨x, hx, ?_, hy⟩
    simp only [joined, Bool.or_eq_true, Bool.not_eq_true', Bool.and_eq_true, List.isEmpty_eq_false_iff_exists_mem]
    exact .inr ⟨by rw [h]; rfl, n, hy⟩

/-- An operand compares `e` with something that is no number, so that `e op …` holds for it: `e` is on the left with `op`, or on the
right with the comparison that is `op` from the other side. -/
def isJoinable (S : NumSem V) (e : Expr) (op : CmpOp) (x : Expr) : Prop :=
  ∃ l o r, x = .compare l [(o, r)] ∧ isOrder o = true ∧ number S l = .ok none ∧ number S r = .ok none ∧
    ((l = e ∧ o = op) ∨ (r = e ∧ ∀ p q, rel o p q = rel op q p))

theorem rel_inj {o o' : CmpOp} (ho : isOrder o = true) (h : ∀ p q, rel o p q = rel o' p q) : o = o' := by
  have h1 := h 0 1
  have h2 := h 1 0
  have h3 := h 0 0
  revert h1 h2 h3 ho
  cases o <;> cases o' <;> decide

theorem added_of_joinable {e x : Expr} {op : CmpOp} (h : isJoinable S e op x) : added S e op x ≠ [] := by
  obtain ⟨l, o, r, rfl, ho, hl, hr, h⟩ := h
  have hn : notOf S (.compare l [(o, r)]) = some (l, o, r) := by simp [notOf, notNumbers, ho, hl, hr]
  unfold added
  simp only [hn]
  rcases h with ⟨rfl, rfl⟩ | ⟨rfl, h⟩
  · simp
  · have : switched o = op := rel_inj (order_switched ho) fun p q => by rw [rel_switched ho, h]
    simp [this]

/-- What `check` reports, and from what. -/
theorem maxMin_chosen {pure : Expr → Bool} {isOr : Bool} {values : List Expr} {msgs : List Msg} (h : check S pure isOr values = .ok msgs)
    {m : Msg} (hm : m ∈ msgs) (hk : m.kind = .maxMin) :
    ∃ c : Chosen V, m = ⟨.maxMin, originalText S c isOr, putInto S (usesMax isOr c.op) c⟩ ∧ c.exprs = values.flatMap (added S c.expr c.op) ∧
      2 ≤ c.exprs.length ∧ (∀ n, c.num = some n → values.flatMap (addedNum S c.expr c.op) = [n]) ∧
      ∀ e op, 2 ≤ (values.flatMap (added S e op)).length → (values.flatMap (added S e op)).length ≤ c.count := by
  unfold check at h
  split at h
  · cases h
  · cases h; cases hm
  · rename_i acc hacc
    cases h
    obtain ⟨h1, h2, h3⟩ := collectAll_parts hacc
    simp only [show ∀ e op, get e op ([] : Comparisons Expr) = [] from fun _ _ => rfl,
      show ∀ e op, get e op ([] : Comparisons V) = [] from fun _ _ => rfl, List.nil_append] at h1 h2
    have hd := h3 ⟨by simp, (fun _ h => nomatch h)⟩
    rcases List.mem_append.1 hm with hm | hm
    · rcases List.mem_append.1 hm with hm | hm
      · obtain ⟨g, -, hg⟩ := List.mem_filterMap.1 hm
        split at hg
        · cases hg
        · unfold suggestion ofBounds at hg
          repeat' split at hg
          all_goals first | (cases hg; done) | (cases hg; simp only at hk; cases hk)
      · obtain ⟨p, -, hp⟩ := List.mem_filterMap.1 hm
        unfold byEquals at hp
        repeat' split at hp
        all_goals first | (cases hp; done) | (cases hp; cases hk)
    · unfold checkMaxMin at hm
      split at hm
      · cases hm
      · rename_i c hc
        rw [List.mem_singleton] at hm
        obtain ⟨h4, -, h6⟩ := chosen_best (numbers := acc.numbers) (cs := acc.comparisons) (best := none)
        rcases h4 c hc with h | ⟨p, hp, q, hq, he, ho, hch⟩
        · cases h
        · refine ⟨c, hm, ?_, hch.two, fun n hn => ?_, fun e op hl => ?_⟩
          · rw [hch.exprs, ← get_of_mem hd hp hq, h1, he, ho]
          · rw [hch.num] at hn
            rw [← onlyNumber_get hn, h2]
          · rw [← h1] at hl ⊢
            obtain ⟨p', hp', rfl, hq'⟩ := mem_of_get (e := e) (op := op) (c := acc.comparisons) (by intro e; rw [e] at hl; simp at hl)
            obtain ⟨d, hd', hle⟩ := h6 p' hp' _ hq' hl
            have : d = c := Option.some.inj (hd'.symm.trans hc)
            subst this
            simp only at hle
            omega

theorem switchIf_reads {t u : List Tok} {e s : Expr} {op : CmpOp} {b : Bool} (ht : Reads 5 t e) (hu : Reads 5 u s) :
    Reads 4 (switchIf t op u b) (if b then .compare s [(switched op, e)] else .compare e [(op, s)]) := by
  unfold switchIf
  cases b
  · exact .compare ht (.one hu)
  · exact .compare hu (.one ht)

theorem sides_ok {e s x : Expr} (h : Side e x s) (hx : x.Ok) : e.Ok ∧ s.Ok := by
  obtain ⟨op, -, rfl | rfl⟩ := h
  · simp only [Expr.Ok, OkOps] at hx; exact ⟨hx.2.1, hx.2.2.1⟩
  · simp only [Expr.Ok, OkOps] at hx; exact ⟨hx.2.2.1, hx.2.1⟩

theorem putInto_reads {isMax : Bool} {c : Chosen V} {a : Expr} (he : Reads 5 c.expr.text c.expr) (ha : Reads 13 (callText S isMax c) a) :
    Reads 4 (putInto S isMax c) (.compare a [(switched c.op, c.expr)]) ∨ Reads 4 (putInto S isMax c) (.compare c.expr [(c.op, a)]) := by
  unfold putInto
  simp only
  split
  · exact .inl (.compare (ha.mono (by omega)) (.one he))
  · exact .inr (.compare he (.one (ha.mono (by omega))))

/-- **C96**. A message `redundant-compare-avoidable-with-max-min` is about two or more operands that compare one expression with
others. The suggestion has the truth value of these operands if what is compared are numbers: replacing them by it keeps the truth
value of the condition. So has what is shown as the original. No expression is compared in one direction with more others than the
suggestion joins.

Missing: the compared expression binds as weak as a comparison, or weaker (`C96_brackets_counterexample`); what it is compared with
starts with a call of `max` or `min` without being one (`C96_call_counterexample`), or that call has one argument
(`C96_list_counterexample`). -/
theorem C96_partial (hS : Numbers S) (pure : Expr → Bool) (isOr : Bool) (values : List Expr) (hok : ∀ x ∈ values, x.Ok) (msgs : List Msg)
    (h : check S pure isOr values = .ok msgs) (m : Msg) (hm : m ∈ msgs) (hk : m.kind = .maxMin) :
    ∃ e sel, (∀ x ∈ values, sel x = true → ∃ s, Side e x s) ∧ 2 ≤ (values.filter sel).length ∧
      (∀ e' op (sel' : Expr → Bool), (∀ x ∈ values, sel' x = true → isJoinable S e' op x) → 2 ≤ (values.filter sel').length →
        (values.filter sel').length ≤ (values.filter sel).length) ∧
      (5 ≤ e.prec → (∀ x ∈ values, sel x = true → ∀ s, Side e x s → Simple s) →
        ∃ e', ReadsAs 0 m.suggestion e' ∧ ∀ env, (∃ p, Numeric S env e p) → HasExtremes S env →
          (∀ x ∈ values, sel x = true → ∀ s, Side e x s → Nums S env s) →
          truthOf S.toSem env e' = truthOf S.toSem env (.boolOp isOr (values.filter sel)) ∧
          ((∀ x ∈ values, ∃ b, truthOf S.toSem env x = .ok b) →
            truthOf S.toSem env (.boolOp isOr values) = truthOf S.toSem env (.boolOp isOr (e' :: values.filter fun x => !sel x)))) ∧
      (5 ≤ e.prec → (∀ x ∈ values, sel x = true → ∀ s, Side e x s → 5 ≤ s.prec) →
        ∃ o', ReadsAs 0 m.original o' ∧ ∀ env, (∃ p, Numeric S env e p) → (∀ x ∈ values, sel x = true → ∀ s, Side e x s → ∃ q, Numeric S env s q) →
          truthOf S.toSem env o' = truthOf S.toSem env (.boolOp isOr (values.filter sel))) := by
  obtain ⟨c, rfl, hex, htwo, hnum, hmost⟩ := maxMin_chosen h hm hk
  obtain ⟨hj1, hj2, hj3⟩ := mem_joined hex hnum
  have hlen : (values.filter (joined S c.expr c.op c.num.isSome)).length = c.count := by
    rw [joined_length, ← hex, Chosen.count]
    cases hc : c.num with
    | none => simp
    | some n => simp [hnum n hc]
  have hcount : 2 ≤ c.count := by simp only [Chosen.count]; omega
  have hside : ∀ x s b, (s, b) ∈ added S c.expr c.op x → Side c.expr x s := by
    intro x s b hs
    obtain ⟨h1, h2, -⟩ := added_side hs
    cases b
    · exact ⟨c.op, h1, .inl h2⟩
    · exact ⟨switched c.op, order_switched h1, .inr h2⟩
  have hsideN : ∀ x v b, (v, b) ∈ addedNum S c.expr c.op x → ∃ s, Side c.expr x s := by
    intro x v b hv
    obtain ⟨⟨o, n, w, ho, -, -, hx⟩, -⟩ := opOf_sound hS (addedNum_side hv).1
    exact ⟨n, o, ho, hx⟩
  have hselside : ∀ x ∈ values, joined S c.expr c.op c.num.isSome x = true → ∃ s, Side c.expr x s := by
    intro x hx hj
    rcases hj1 x hx hj with ⟨⟨s, b⟩, -, hy⟩ | ⟨⟨v, b⟩, -, hy⟩
    · exact ⟨s, hside x s b hy⟩
    · exact hsideN x v b hy
  have hop : isOrder c.op = true := by
    obtain ⟨⟨s, b⟩, hy⟩ := List.exists_mem_of_length_pos (l := c.exprs) (by omega)
    obtain ⟨x, -, -, hx⟩ := hj2 _ hy
    exact (added_side hx).1
  have hnumv : ∀ n, c.num = some n → IsNum S n.1 := by
    intro n hn
    obtain ⟨x, -, -, hx⟩ := hj3 n hn
    exact (opOf_sound hS (addedNum_side hx).1).2.1
  have hexok : c.expr.Ok ∧ ∀ y ∈ c.exprs, y.1.Ok := by
    have key : ∀ y ∈ c.exprs, c.expr.Ok ∧ y.1.Ok := by
      intro y hy
      obtain ⟨x, hx, -, hxy⟩ := hj2 y hy
      exact sides_ok (hside x y.1 y.2 hxy) (hok x hx)
    obtain ⟨y, hy⟩ := List.exists_mem_of_length_pos (l := c.exprs) (by omega)
    exact ⟨(key y hy).1, fun y hy => (key y hy).2⟩
  have hne : values.filter (joined S c.expr c.op c.num.isSome) ≠ [] := by
    intro e; rw [e] at hlen; simp at hlen; omega
  have hgt : ∀ env p, Numeric S env c.expr p →
      (∀ x ∈ values, joined S c.expr c.op c.num.isSome x = true → ∀ s, Side c.expr x s → ∃ q, Numeric S env s q) →
      truthOf S.toSem env (.boolOp isOr (values.filter (joined S c.expr c.op c.num.isSome))) =
        .ok (conn isOr ((c.exprs.map (fun y => numOf S env y.1) ++ c.num.toList.map fun n => S.val n.1).map (rel c.op p))) := by
    intro env p hp hall
    have htr : ∀ x ∈ values, joined S c.expr c.op c.num.isSome x = true → ∀ s b, (s, b) ∈ added S c.expr c.op x →
        truthOf S.toSem env x = .ok (rel c.op p (numOf S env s)) := fun x hx hj s b hs =>
      truth_added hS hs hp (numeric_numOf (hall x hx hj s (hside x s b hs)))
    have htn : ∀ x v b, (v, b) ∈ addedNum S c.expr c.op x → truthOf S.toSem env x = .ok (rel c.op p (S.val v)) := fun x v b hv =>
      (opOf_sound hS (addedNum_side hv).1).2.2.2 env p hp
    rw [truthOf_boolOp' hne]
    · congr 1
      refine conn_congr fun b => ?_
      simp only [List.mem_map, List.mem_filter, List.mem_append, Option.mem_toList]
      constructor
      · rintro ⟨x, ⟨hx, hj⟩, rfl⟩
        rcases hj1 x hx hj with ⟨⟨s, b⟩, hy, hy'⟩ | ⟨⟨v, b⟩, hn, hy'⟩
        · exact ⟨_, .inl ⟨_, hy, rfl⟩, (truthD_eq (htr x hx hj s b hy')).symm⟩
        · exact ⟨_, .inr ⟨_, hn, rfl⟩, (truthD_eq (htn x v b hy')).symm⟩
      · rintro ⟨q, ⟨⟨s, b⟩, hy, rfl⟩ | ⟨⟨v, b⟩, hn, rfl⟩, rfl⟩
        · obtain ⟨x, hx, hj, hxy⟩ := hj2 _ hy
          exact ⟨x, ⟨hx, hj⟩, truthD_eq (htr x hx hj s b hxy)⟩
        · obtain ⟨x, hx, hj, hxy⟩ := hj3 _ hn
          exact ⟨x, ⟨hx, hj⟩, truthD_eq (htn x v b hxy)⟩
    · intro x hx
      obtain ⟨hx, hj⟩ := List.mem_filter.1 hx
      rcases hj1 x hx hj with ⟨⟨s, b⟩, hy, hy'⟩ | ⟨⟨v, b⟩, hn, hy'⟩
      · exact ⟨_, htr x hx hj s b hy'⟩
      · exact ⟨_, htn x v b hy'⟩
  refine ⟨c.expr, joined S c.expr c.op c.num.isSome, hselside, by omega, ?_, ?_, ?_⟩
  · intro e' op sel' hsel' hl
    have hle : ∀ l : List Expr, (∀ x ∈ l, sel' x = true → added S e' op x ≠ []) → (l.filter sel').length ≤ (l.flatMap (added S e' op)).length := by
      intro l
      induction l with
      | nil => intro _; simp
      | cons x l ih =>
        intro hl
        have := ih fun y hy => hl y (by simp [hy])
        rw [List.filter_cons, List.flatMap_cons, List.length_append]
        split
        · rename_i hs
          have := List.length_pos_iff.2 (hl x (by simp) hs)
          simp only [List.length_cons]
          omega
        · omega
    have h1 := hle values fun x hx hs => added_of_joinable (hsel' x hx hs)
    have := hmost e' op (by omega)
    omega
  · intro h5 hsimple
    have he : Reads 5 c.expr.text c.expr := reads_text_at hexok.1 h5
    have hsim : ∀ y ∈ c.exprs, Simple y.1 := by
      intro y hy
      obtain ⟨x, hx, hj, hxy⟩ := hj2 y hy
      exact hsimple x hx hj y.1 (hside x y.1 y.2 hxy)
    obtain ⟨ns, hns1, hns2⟩ : ∃ ns : List Expr, List.Forall₂ (fun t as => ReadsArgs t as ∧ as ≠ []) (c.num.toList.map fun x => S.shown x.1) (ns.map ([·])) ∧
        ∀ env, (∀ n ∈ ns, ∃ q, Numeric S env n q) ∧ ns.map (numOf S env) = c.num.toList.map fun n => S.val n.1 := by
      cases hc : c.num with
      | none => exact ⟨[], .nil, fun env => ⟨(fun _ h => nomatch h), rfl⟩⟩
      | some n =>
        obtain ⟨e, h1, h2⟩ := shown_reads hS (hnumv n hc)
        refine ⟨[e], .cons ⟨.one (h1.mono (by omega)), by simp⟩ .nil, fun env => ⟨?_, ?_⟩⟩
        · intro n' hn'
          rw [List.mem_singleton] at hn'
          exact ⟨_, hn' ▸ h2 env⟩
        · simp [numOf_eq (h2 env)]
    have hf : List.Forall₂ (fun t as => ReadsArgs t as ∧ as ≠ []) (c.exprs.map fun x => argText (usesMax isOr c.op) x.1.text)
        (c.exprs.map fun x => argsOf (usesMax isOr c.op) x.1) := by
      rw [List.forall₂_map_left_iff, List.forall₂_map_right_iff, List.forall₂_same]
      exact fun y hy => argText_reads _ (hexok.2 y hy) (hsim y hy)
    obtain ⟨hr, -⟩ := readsArgs_sep (List.rel_append hf hns1) (by
      intro e
      rw [List.append_eq_nil_iff, List.map_eq_nil_iff] at e
      rw [e.1] at htwo
      simp at htwo)
    let args := (c.exprs.map (fun x => argsOf (usesMax isOr c.op) x.1) ++ ns.map ([·])).flatten
    have hargs : ReadsArgs _ args := hr
    have hcall : Reads 13 (callText S (usesMax isOr c.op) c) (.call (.name (funcName (usesMax isOr c.op))) args) := .call (.name _) hargs
    have hvals : ∀ env p, HasExtremes S env →
        (∀ x ∈ values, joined S c.expr c.op c.num.isSome x = true → ∀ s, Side c.expr x s → Nums S env s) →
        ∃ q, Numeric S env (.call (.name (funcName (usesMax isOr c.op))) args) q ∧
          rel c.op p q = conn isOr ((c.exprs.map (fun y => numOf S env y.1) ++ c.num.toList.map fun n => S.val n.1).map (rel c.op p)) := by
      intro env p hE hN
      have hN' : ∀ y ∈ c.exprs, Nums S env y.1 := by
        intro y hy
        obtain ⟨x, hx, hj, hxy⟩ := hj2 y hy
        exact hN x hx hj y.1 (hside x y.1 y.2 hxy)
      have hnumeric : ∀ a ∈ args, ∃ q, Numeric S env a q := by
        intro a ha
        obtain ⟨as, has, ha⟩ := List.mem_flatten.1 ha
        rcases List.mem_append.1 has with has | has
        · obtain ⟨y, hy, rfl⟩ := List.mem_map.1 has
          exact argsOf_numeric _ (hN' y hy) a ha
        · obtain ⟨n, hn, rfl⟩ := List.mem_map.1 has
          rw [List.mem_singleton] at ha
          exact ha ▸ (hns2 env).1 n hn
      have hlong : 2 ≤ args.length := by
        have : ∀ l : List (Expr × Bool), (∀ y ∈ l, Simple y.1 ∧ y.1.Ok) → l.length ≤ (l.map fun x => argsOf (usesMax isOr c.op) x.1).flatten.length := by
          intro l
          induction l with
          | nil => intro _; simp
          | cons y l ih =>
            intro hl
            have h1 := ih fun z hz => hl z (by simp [hz])
            have h2 := List.length_pos_iff.2 (argText_reads (usesMax isOr c.op) (hl y (by simp)).2 (hl y (by simp)).1).2
            simp only [List.map_cons, List.flatten_cons, List.length_append, List.length_cons]
            omega
        have := this c.exprs fun y hy => ⟨hsim y hy, hexok.2 y hy⟩
        simp only [args, List.flatten_append, List.length_append]
        omega
      obtain ⟨q, hq1, hq2⟩ := extreme_call hE (usesMax isOr c.op) hlong hnumeric
      refine ⟨q, hq1, ?_⟩
      rw [extreme_conn hop hq2 p]
      simp only [args, List.flatten_append, List.map_append]
      rw [conn_append, conn_append (List.map (rel c.op p) (List.map (fun y => numOf S env y.1) c.exprs)), ← (hns2 env).2]
      congr 2
      · rw [← List.flatMap_def, List.map_flatMap, List.map_flatMap, conn_flatMap, List.map_map]
        congr 1
        exact List.map_congr_left fun y hy => (argsOf_conn hE hop (hsim y hy) (hN' y hy) p).symm
      · simp [← List.flatMap_def]
    rcases putInto_reads he hcall with hput | hput
    · refine ⟨_, (hput.mono (Nat.zero_le _)).as, fun env ⟨p, hp⟩ hE hN => ?_⟩
      obtain ⟨q, hq1, hq2⟩ := hvals env p hE hN
      have h1 : truthOf S.toSem env (.compare (.call (.name (funcName (usesMax isOr c.op))) args) [(switched c.op, c.expr)]) =
          truthOf S.toSem env (.boolOp isOr (values.filter (joined S c.expr c.op c.num.isSome))) := by
        rw [truthOf_compare hS (order_plain (order_switched hop)) hq1 hp, rel_switched hop, hq2, hgt env p hp fun x hx hj s hs => (hN x hx hj s hs).1]
      exact ⟨h1, fun hall => replace_group hne hall h1⟩
    · refine ⟨_, (hput.mono (Nat.zero_le _)).as, fun env ⟨p, hp⟩ hE hN => ?_⟩
      obtain ⟨q, hq1, hq2⟩ := hvals env p hE hN
      have h1 : truthOf S.toSem env (.compare c.expr [(c.op, .call (.name (funcName (usesMax isOr c.op))) args)]) =
          truthOf S.toSem env (.boolOp isOr (values.filter (joined S c.expr c.op c.num.isSome))) := by
        rw [truthOf_compare hS (order_plain hop) hp hq1, hq2, hgt env p hp fun x hx hj s hs => (hN x hx hj s hs).1]
      exact ⟨h1, fun hall => replace_group hne hall h1⟩
  · intro h5 hprec
    have he : Reads 5 c.expr.text c.expr := reads_text_at hexok.1 h5
    have hcmp : ∀ (s : Expr) (b : Bool), ∀ env p q, Numeric S env c.expr p → Numeric S env s q →
        truthOf S.toSem env (if b then .compare s [(switched c.op, c.expr)] else .compare c.expr [(c.op, s)]) = .ok (rel c.op p q) := by
      intro s b env p q hp hq
      cases b
      · exact truthOf_compare hS (order_plain hop) hp hq
      · rw [if_pos rfl, truthOf_compare hS (order_plain (order_switched hop)) hq hp, rel_switched hop]
    obtain ⟨ns, hns1, hns2⟩ : ∃ ns : List Expr,
        List.Forall₂ (fun t e => Reads (boolPrec isOr + 1) t e) (c.num.toList.map fun x => switchIf c.expr.text c.op (S.shown x.1) x.2) ns ∧
        ∀ env p, Numeric S env c.expr p → ns.map (truthOf S.toSem env) = (c.num.toList.map fun n => rel c.op p (S.val n.1)).map .ok := by
      cases hc : c.num with
      | none => exact ⟨[], .nil, fun env p _ => rfl⟩
      | some n =>
        obtain ⟨e, h1, h2⟩ := shown_reads hS (hnumv n hc)
        refine ⟨[_], .cons ((switchIf_reads (op := c.op) (b := n.2) he h1).mono (by cases isOr <;> decide)) .nil, fun env p hp => ?_⟩
        simp only [Option.toList_some, List.map_cons, List.map_nil]
        rw [hcmp e n.2 env p _ hp (h2 env)]
    have hf : List.Forall₂ (fun t e => Reads (boolPrec isOr + 1) t e) (c.exprs.map fun x => switchIf c.expr.text c.op x.1.text x.2)
        (c.exprs.map fun x => if x.2 then .compare x.1 [(switched c.op, c.expr)] else .compare c.expr [(c.op, x.1)]) := by
      rw [List.forall₂_map_left_iff, List.forall₂_map_right_iff, List.forall₂_same]
      intro y hy
      obtain ⟨x, hx, hj, hxy⟩ := hj2 y hy
      exact (switchIf_reads he (reads_text_at (hexok.2 y hy) (hprec x hx hj y.1 (hside x y.1 y.2 hxy)))).mono (by cases isOr <;> decide)
    have hread := reads_boolOp (List.rel_append hf hns1) (by rw [List.length_append, List.length_map]; omega)
    have htext : originalText S c isOr = sepBy (boolTok isOr) ((c.exprs.map fun x => switchIf c.expr.text c.op x.1.text x.2) ++
        c.num.toList.map fun x => switchIf c.expr.text c.op (S.shown x.1) x.2) := by
      rw [originalText, Chosen.texts, List.map_append, List.map_map, List.map_map]; rfl
    refine ⟨_, by rw [htext]; exact (hread.mono (Nat.zero_le _)).as, fun env ⟨p, hp⟩ hN => ?_⟩
    rw [hgt env p hp hN]
    refine truthOf_boolOp (fun e => ?_) ?_
    · rw [List.append_eq_nil_iff, List.map_eq_nil_iff] at e
      rw [e.1] at htwo
      simp at htwo
    · rw [List.map_append, hns2 env p hp, List.map_append, List.map_append, List.map_map, List.map_map, List.map_map, List.map_map]
      congr 1
      · refine List.map_congr_left fun y hy => ?_
        obtain ⟨x, hx, hj, hxy⟩ := hj2 y hy
        exact hcmp y.1 y.2 env p _ hp (numeric_numOf (hN x hx hj y.1 (hside x y.1 y.2 hxy)))
      · simp [Function.comp_def]

/-- If all operands are pure and two of them compare an expression with others in the same direction, `max` or `min` is suggested. -/
theorem C96_reported (pure : Expr → Bool) (isOr : Bool) (values : List Expr) (msgs : List Msg)
    (h : check S pure isOr values = .ok msgs) (hp : ∀ x ∈ values, pure x = true) (e : Expr) (op : CmpOp) (sel : Expr → Bool)
    (hsel : ∀ x ∈ values, sel x = true → isJoinable S e op x) (hl : 2 ≤ (values.filter sel).length) : ∃ m ∈ msgs, m.kind = .maxMin := by
  unfold check at h
  split at h
  · cases h
  · rename_i hnone
    exfalso
    have : ∀ (vs : List Expr) (acc : Acc V), (∀ x ∈ vs, pure x = true) → collectAll S pure isOr acc vs ≠ .ok none := by
      intro vs
      induction vs with
      | nil => intro acc _ h; cases h
      | cons x vs ih =>
        intro acc hvs h
        rw [collectAll, if_pos (hvs x (by simp))] at h
        split at h
        · cases h
        · exact ih _ (fun y hy => hvs y (by simp [hy])) h
    exact this values _ hp hnone
  · rename_i acc hacc
    cases h
    obtain ⟨h1, -, -⟩ := collectAll_parts hacc
    simp only [show ∀ e op, get e op ([] : Comparisons Expr) = [] from fun _ _ => rfl, List.nil_append] at h1
    have hle : ∀ l : List Expr, (∀ x ∈ l, sel x = true → added S e op x ≠ []) → (l.filter sel).length ≤ (l.flatMap (added S e op)).length := by
      intro l
      induction l with
      | nil => intro _; simp
      | cons x l ih =>
        intro hl
        have := ih fun y hy => hl y (by simp [hy])
        rw [List.filter_cons, List.flatMap_cons, List.length_append]
        split
        · rename_i hs
          have := List.length_pos_iff.2 (hl x (by simp) hs)
          simp only [List.length_cons]
          omega
        · omega
    have h2 := hle values fun x hx hs => added_of_joinable (hsel x hx hs)
    rw [← h1] at h2
    obtain ⟨p, hp', rfl, hq⟩ := mem_of_get (e := e) (op := op) (c := acc.comparisons) (by intro e; rw [e, List.length_nil] at h2; omega)
    obtain ⟨d, hd, -⟩ := (chosen_best (numbers := acc.numbers) (cs := acc.comparisons) (best := none)).2.2 p hp' _ hq (by simp only; omega)
    have hc : chosen acc.numbers acc.comparisons = some d := hd
    exact ⟨_, List.mem_append_right _ (by rw [checkMaxMin, hc]; exact List.mem_singleton.2 rfl), rfl⟩

/-! ### Examples -/

/-- `max` and `min` of integers. -/
def best (isMax : Bool) (i : Int) (is : List Int) : Int := is.foldl (fun a b => if isMax then (if a < b then b else a) else (if b < a then b else a)) i

def bestCall (isMax : Bool) (args : List Val) : Except PyErr Val :=
  match args.mapM Val.asInt with
  | some (i :: is) => .ok (.int (best isMax i is))
  | _ => .error .typeError

/-- Integers with `max` and `min`. -/
def restM : FoldSem Val :=
  { rest with call := fun f args => if f = .builtin "max".toList then bestCall true args else if f = .builtin "min".toList then bestCall false args else .error .typeError }

theorem restM_numbers : Numbers (intNum restM) := intNum_numbers fun _ => rfl

theorem best_extreme (isMax : Bool) : ∀ (is : List Int) (i : Int), best isMax i is ∈ i :: is ∧
    ∀ j ∈ i :: is, if isMax then j ≤ best isMax i is else best isMax i is ≤ j
  | [], i => by cases isMax <;> simp [best]
  | j :: is, i => by
    obtain ⟨h1, h2⟩ := best_extreme isMax is (if isMax then (if i < j then j else i) else (if j < i then j else i))
    have hb : best isMax i (j :: is) = best isMax (if isMax then (if i < j then j else i) else (if j < i then j else i)) is := rfl
    rw [hb]
    generalize best isMax (if isMax then (if i < j then j else i) else (if j < i then j else i)) is = w at h1 h2
    constructor
    · grind
    · intro k hk
      have h3 := h2 (if isMax then (if i < j then j else i) else (if j < i then j else i)) (by simp)
      rcases List.mem_cons.1 hk with rfl | hk
      · cases isMax <;> grind
      · rcases List.mem_cons.1 hk with rfl | hk
        · cases isMax <;> grind
        · exact h2 k (by simp [hk])

/-- The names `max`, `min`, `x`, `a` and `b`. -/
def envM (x a b : Int) : Env Val := fun n =>
  if n = "max".toList then .ok (.builtin "max".toList) else if n = "min".toList then .ok (.builtin "min".toList)
  else if n = ['x'] then .ok (.int x) else if n = ['a'] then .ok (.int a) else if n = ['b'] then .ok (.int b) else .error .keyError

theorem asInt_list : ∀ {vs : List Val} {ps : List Rat}, vs.map (intNum restM).num = ps.map some →
    ∃ is : List Int, vs.mapM Val.asInt = some is ∧ ps = is.map (fun i : Int => (i : Rat)) ∧ is.length = vs.length
  | [], [], _ => ⟨[], rfl, rfl, rfl⟩
  | [], _ :: _, h => by cases h
  | _ :: _, [], h => by cases h
  | v :: vs, p :: ps, h => by
    obtain ⟨h1, h2⟩ := List.cons.inj (h : (intNum restM).num v :: vs.map (intNum restM).num = some p :: ps.map some)
    obtain ⟨is, h3, h4, h5⟩ := asInt_list h2
    obtain ⟨i, hi, rfl⟩ := Option.map_eq_some_iff.1 (show v.asInt.map (fun i : Int => (i : Rat)) = some p from h1)
    exact ⟨i :: is, by simp [List.mapM_cons, hi, h3], by simp [h4], by simp [h5]⟩

theorem envM_extremes (x a b : Int) : HasExtremes (intNum restM) (envM x a b) := by
  intro isMax
  have key : ∀ vs ps, 2 ≤ vs.length → vs.map (intNum restM).num = ps.map some → ∃ w q, bestCall isMax vs = .ok w ∧ (intNum restM).num w = some q ∧ IsExtreme isMax ps q := by
    intro vs ps hl h
    obtain ⟨is, h1, rfl, h3⟩ := asInt_list h
    match is, h3, h1 with
    | [], h3, _ => simp at h3; omega
    | i :: is, _, h1 =>
      obtain ⟨h4, h5⟩ := best_extreme isMax is i
      refine ⟨.int (best isMax i is), _, by simp [bestCall, h1], rfl, List.mem_map_of_mem h4, fun p hp => ?_⟩
      obtain ⟨j, hj, rfl⟩ := List.mem_map.1 hp
      have := h5 j hj
      cases isMax
      · simpa [Rat.intCast_le_intCast] using this
      · simpa [Rat.intCast_le_intCast] using this
  cases isMax
  · exact ⟨.builtin "min".toList, rfl, key⟩
  · exact ⟨.builtin "max".toList, rfl, key⟩

def exA : Expr := .name ['a']
def exB : Expr := .name ['b']

/-- `x > a and b < x and 3 < x` becomes `max(a, b, 3) < x`. -/
example : check (intNum restM) (fun _ => true) false [cmp1 exX .gt exA, cmp1 exB .lt exX, cmp1 (lit 3) .lt exX] =
    .ok [⟨.maxMin, [.ident ['x'], .sym ">", .ident ['a'], .sym "and", .ident ['b'], .sym "<", .ident ['x'], .sym "and", .lit (.int 3), .sym "<", .ident ['x']],
      [.ident "max".toList, .sym "(", .ident ['a'], .sym ",", .ident ['b'], .sym ",", .lit (.int 3), .sym ")", .sym "<", .ident ['x']]⟩] := by
  rfl

theorem simple_name {n : Str} : Simple (.name n) := fun _ _ => .inl fun ⟨_, h⟩ => nomatch h

theorem nums_name {env : Env Val} {n : Str} {i : Int} (h : env n = .ok (.int i)) : Nums (intNum restM) env (.name n) :=
  ⟨⟨i, .int i, by rw [eval, h], rfl⟩, fun _ _ _ h => nomatch h⟩

/-- `x > a and b < x`: the hypotheses of C96 are met, and the suggestion `x > max(a, b)` or the like is equivalent. -/
example (x a b : Int) : ∃ e', ReadsAs 0 [.ident "max".toList, .sym "(", .ident ['a'], .sym ",", .ident ['b'], .sym ")", .sym "<", .ident ['x']] e' ∧
    truthOf (intNum restM).toSem (envM x a b) (.boolOp false [cmp1 exX .gt exA, cmp1 exB .lt exX]) =
      truthOf (intNum restM).toSem (envM x a b) (.boolOp false [e']) := by
  obtain ⟨e, sel, h1, h2, -, h3, -⟩ := C96_partial restM_numbers (fun _ => true) false [cmp1 exX .gt exA, cmp1 exB .lt exX]
    (by simp [Expr.Ok, OkOps, cmp1, exX, exA, exB]) [_] rfl _ (List.mem_singleton.2 rfl) rfl
  have hsel : sel (cmp1 exX .gt exA) = true ∧ sel (cmp1 exB .lt exX) = true := by
    rw [List.filter_cons, List.filter_cons] at h2
    cases ha : sel (cmp1 exX .gt exA) <;> cases hb : sel (cmp1 exB .lt exX) <;> simp_all
  have hx : e = exX := by
    obtain ⟨s, op, -, h | h⟩ := h1 _ (by simp) hsel.1 <;> obtain ⟨s', op', -, h' | h'⟩ := h1 _ (by simp) hsel.2 <;> cases h <;> cases h' <;> rfl
  subst hx
  have hs : ∀ x ∈ [cmp1 exX .gt exA, cmp1 exB .lt exX], ∀ s, Side exX x s → s = exA ∨ s = exB ∨ s = exX := by
    rintro x hx s ⟨op, -, h⟩
    rcases List.mem_cons.1 hx with rfl | hx
    · rcases h with h | h <;> cases h <;> simp
    · rw [List.mem_singleton] at hx
      subst hx
      rcases h with h | h <;> cases h <;> simp
  obtain ⟨e', h4, h5⟩ := h3 (by decide) (fun x hx _ s hsd => by rcases hs x hx s hsd with rfl | rfl | rfl <;> exact simple_name)
  obtain ⟨-, h6⟩ := h5 (envM x a b) ⟨x, .int x, rfl, rfl⟩ (envM_extremes x a b) (fun y hy _ s hsd => by
    rcases hs y hy s hsd with rfl | rfl | rfl
    · exact nums_name (i := a) rfl
    · exact nums_name (i := b) rfl
    · exact nums_name (i := x) rfl)
  refine ⟨e', h4, ?_⟩
  have := h6 (by
    intro y hy
    rcases List.mem_cons.1 hy with rfl | hy
    · exact ⟨_, rfl⟩
    · rw [List.mem_singleton] at hy; subst hy; exact ⟨_, rfl⟩)
  rw [this]
  simp [hsel]

/-! ### Disagreements -/

/-- `max(…)` and `min(…)` -/
def maxE (as : List Expr) : Expr := .call (.name "max".toList) as
def minE (as : List Expr) : Expr := .call (.name "min".toList) as

/-- **C96** is false of the code: for `x > max(a, b) + min(a, b) and x > b`, `max(a, b) + min(a, b, b)` is what is compared with in the
suggestion, because the text starts with `max(`. For `x = 3`, `a = -3` and `b = 5`, the condition is false and the suggestion true. -/
theorem C96_call_counterexample :
    let values := [cmp1 exX .gt (.bin .add (maxE [exA, exB]) (minE [exA, exB])), cmp1 exX .gt exB]
    let suggested := cmp1 exX .gt (.bin .add (maxE [exA, exB]) (minE [exA, exB, exB]))
    (∃ original, check (intNum restM) (fun _ => true) false values = .ok [⟨.maxMin, original, suggested.text⟩]) ∧ ReadsAs 0 suggested.text suggested ∧
      HasExtremes (intNum restM) (envM 3 (-3) 5) ∧ truthOf (intNum restM).toSem (envM 3 (-3) 5) (.boolOp false values) = .ok false ∧
      truthOf (intNum restM).toSem (envM 3 (-3) 5) suggested = .ok true :=
  ⟨⟨_, rfl⟩, (reads_text_at (by simp [Expr.Ok, OkOps, OkAll, cmp1, exX, exA, exB, maxE, minE]) (Nat.zero_le _)).as, envM_extremes _ _ _, rfl, rfl⟩

/-- Lists with `max`: there is one of integers, and its maximum is 5. -/
def restL : FoldSem Val :=
  { restM with call := fun f args => if f = .builtin "max".toList ∧ args = [.obj 0] then .ok (.int 5) else restM.call f args }

/-- `x > max(a) and x > b`, where `a` is a list: `x > max(a, b)` is suggested, which raises an exception. -/
theorem C96_list_counterexample :
    let values := [cmp1 exX .gt (maxE [exA]), cmp1 exX .gt exB]
    let suggested := cmp1 exX .gt (maxE [exA, exB])
    let env : Env Val := fun n => if n = ['a'] then .ok (.obj 0) else envM 9 0 1 n
    (∃ original, check (intNum restL) (fun _ => true) false values = .ok [⟨.maxMin, original, suggested.text⟩]) ∧ ReadsAs 0 suggested.text suggested ∧
      truthOf (intNum restL).toSem env (.boolOp false values) = .ok true ∧ truthOf (intNum restL).toSem env suggested = .error .typeError :=
  ⟨⟨_, rfl⟩, (reads_text_at (by simp [Expr.Ok, OkOps, OkAll, cmp1, exX, exA, exB, maxE]) (Nat.zero_le _)).as, rfl, rfl⟩

/-- `(x < 3) < a and (x < 3) < b`, where brackets are lost: `x < 3 < min(a, b)` is suggested, which is false for `x = 4`. -/
theorem C96_brackets_counterexample :
    let values := [cmp1 (cmp1 exX .lt (lit 3)) .lt exA, cmp1 (cmp1 exX .lt (lit 3)) .lt exB]
    let suggested : Expr := .compare exX [(.lt, lit 3), (.lt, minE [exA, exB])]
    (∃ original, check (intNum restM) (fun _ => true) false values = .ok [⟨.maxMin, original, suggested.text⟩]) ∧
      ReadsAs 0 suggested.text suggested ∧ truthOf (intNum restM).toSem (envM 4 5 6) (.boolOp false values) = .ok true ∧
      truthOf (intNum restM).toSem (envM 4 5 6) suggested = .ok false :=
  ⟨⟨_, rfl⟩, (reads_text_at (by simp [Expr.Ok, OkOps, OkAll, exX, lit, minE, exA, exB]) (Nat.zero_le _)).as, rfl, rfl⟩

end Verif.Py.BoolOps
