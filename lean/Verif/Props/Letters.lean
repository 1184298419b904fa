import Verif.Model.LocalDefects
import Verif.Lemmas.PyInt
import Verif.Lemmas.Parse
import Verif.Props.LocalDefects

/-! C36, C37 and C40: repeated operations and numbers of letters. -/

namespace Verif.Py

variable (R : FoldSem Val)

/-! ### C40: repeated operations -/

/-- The operands of a chain of the operation `op`. -/
def operands (op : BinOp) : Expr → List Expr
  | .bin o l r => if o = op then operands op l ++ operands op r else [.bin o l r]
  | e => [e]

/-- No left operand is itself an operation, as in `a + (b + c)` and `a + b`. -/
def RightNested : Expr → Prop
  | .bin _ l r => isBinOp l = false ∧ RightNested r
  | _ => True

theorem repeatedRec_leaf {op : BinOp} {e : Expr} (he : isBinOp e = false) {name : Option Expr} {p : Nat × Option Expr}
    (h : repeatedRec op e name = some p) : p.2 = some e ∧ (∀ n, name = some n → n = e) := by
  cases e with
  | bin o l r => simp [isBinOp] at he
  | _ =>
    cases name with
    | none => simp [repeatedRec] at h <;> (subst h; simp)
    | some n =>
      simp only [repeatedRec] at h
      split at h
      · rename_i hn; cases h; exact ⟨rfl, by rintro m ⟨⟩; exact hn⟩
      · cases h

theorem operands_leaf {op : BinOp} {e : Expr} (he : isBinOp e = false) : operands op e = [e] := by
  cases e <;> first | rfl | simp [isBinOp] at he

/-- With a name given, all operands are that name. -/
theorem repeatedRec_some (op : BinOp) : ∀ (e : Expr) (n : Expr) (p : Nat × Option Expr),
    repeatedRec op e (some n) = some p → p.2 = some n ∧ ∀ x ∈ operands op e, x = n := by
  intro e
  induction e using operands.induct op with
  | case1 l r ihl ihr =>
    intro n p h
    simp only [repeatedRec, ne_eq, not_true, if_false] at h
    cases hl : repeatedRec op l (some n) with
    | none => simp [hl] at h
    | some q =>
      obtain ⟨c, m⟩ := q
      obtain ⟨hm, hlx⟩ := ihl n _ hl
      simp only [] at hm
      subst hm
      simp only [hl] at h
      cases hr : repeatedRec op r (some n) with
      | none => simp [hr] at h
      | some q =>
        obtain ⟨_, hrx⟩ := ihr n _ hr
        simp only [hr, Option.some.injEq] at h
        subst h
        refine ⟨rfl, fun x hx => ?_⟩
        simp only [operands, if_true, List.mem_append] at hx
        exact hx.elim (hlx x) (hrx x)
  | case2 o l r ho =>
    intro n p h
    simp [repeatedRec, ho] at h
  | case3 e he =>
    intro n p h
    have hb : isBinOp e = false := by
      cases e with
      | bin o l r => exact absurd rfl (he o l r)
      | _ => rfl
    obtain ⟨h1, h2⟩ := repeatedRec_leaf hb h
    have := h2 n rfl
    subst this
    refine ⟨h1, fun x hx => ?_⟩
    rw [operands_leaf hb] at hx
    simpa using hx

/-- **C40**, partial: if an operation is reported as repeated, then all of its operands are the same
expression, provided that no left operand is itself an operation. Missing: `a + b + c` is read as
`(a + b) + c`, for which it is false (`C40_counterexample`). -/
theorem C40_repeated_partial (op : BinOp) (l r : Expr) (hn : RightNested (.bin op l r))
    (h : repeatedOperation (.bin op l r) = true) :
    ∀ x ∈ operands op (.bin op l r), ∀ y ∈ operands op (.bin op l r), x = y := by
  simp only [repeatedOperation, decide_eq_true_eq, Option.isSome_iff_exists] at h
  obtain ⟨_, p, h⟩ := h
  obtain ⟨hl, _⟩ := hn
  simp only [repeatedRec, ne_eq, not_true, if_false] at h
  cases h1 : repeatedRec op l Option.none with
  | none => simp [h1] at h
  | some q =>
    obtain ⟨c, m⟩ := q
    obtain ⟨hm, _⟩ := repeatedRec_leaf hl h1
    simp only [] at hm
    subst hm
    simp only [h1] at h
    cases h2 : repeatedRec op r (some l) with
    | none => simp [h2] at h
    | some q =>
      have hall : ∀ x ∈ operands op (.bin op l r), x = l := by
        intro x hx
        simp only [operands, if_true, operands_leaf hl, List.mem_append, List.mem_singleton] at hx
        exact hx.elim id ((repeatedRec_some op r l _ h2).2 x)
      intro x hx y hy
      rw [hall x hx, hall y hy]

/-- The hypotheses are met by `x + (x + x)`. -/
example : RightNested (.bin .add (.name ['x']) (.bin .add (.name ['x']) (.name ['x']))) ∧
    repeatedOperation (.bin .add (.name ['x']) (.bin .add (.name ['x']) (.name ['x']))) = true :=
  ⟨⟨rfl, rfl, trivial⟩, by decide⟩

/-- **C40** is false of the code: `x + x + y` is reported. -/
theorem C40_counterexample :
    ∃ l r x y, repeatedOperation (.bin .add l r) = true ∧
      x ∈ operands .add (.bin .add l r) ∧ y ∈ operands .add (.bin .add l r) ∧ x ≠ y :=
  ⟨.bin .add (.name ['x']) (.name ['x']), .name ['y'], .name ['x'], .name ['y'], by decide, by decide,
    by decide, by decide⟩

/-! ### C37: comparisons of characters -/

theorem toNat_chr {i : Int} (h0 : 0 ≤ i) (h1 : i < 200) : ((chr i).toNat : Int) = i := by
  have : i.toNat.isValidChar := by left; omega
  have h2 : (Char.ofNat i.toNat).toNat = i.toNat := by
    simp [Char.ofNat, this, Char.toNat, Char.ofNatAux]
  rw [chr, h2]; omega

theorem strLt_single (c d : Char) : strLt [c] [d] = decide ((c.toNat : Int) < d.toNat) := by
  simp [strLt]

/-- Comparing characters is comparing their numbers. -/
theorem strCmp_single (op : CmpOp) (c d : Char) : strCmp op [c] [d] = intCmp op c.toNat d.toNat := by
  have hcd : c = d ↔ c.toNat = d.toNat := Char.toNat_inj.symm
  cases op <;> simp only [strCmp, intCmp, strLt_single, Option.some.injEq] <;>
    simp [hcd] <;> (try omega)
  · by_cases h : c.toNat = d.toNat <;> simp [h] <;> omega
  · by_cases h : c.toNat = d.toNat <;> simp [h] <;> omega

theorem inSuggestableRange_iff {i : Int} : inSuggestableRange i = true ↔ 32 ≤ i ∧ i < 127 := by
  simp [inSuggestableRange]

/-- A comparison operator on numbers. -/
def isOrdering (op : CmpOp) : Prop := op ∈ [CmpOp.lt, .le, .eq, .ne, .ge, .gt]

theorem letterLeft_spec {v : Int} {op op' : CmpOp} {plain : Bool} {x : Char} (hv : inSuggestableRange v = true)
    (h : letterLeft v op plain = some (x, op')) (c : Char) :
    strCmp op' [x] [c] = intCmp op v c.toNat := by
  rw [inSuggestableRange_iff] at hv
  rw [strCmp_single]
  unfold letterLeft at h
  split at h
  · rename_i hp
    cases h
    rw [toNat_chr (by omega) (by omega)]
    rcases hp.2 with rfl | rfl <;> simp [changeOp, intCmp] <;> omega
  · split at h
    · rename_i hp
      cases h
      rw [toNat_chr (by omega) (by omega)]
      rcases hp.2 with rfl | rfl <;> simp [changeOp, intCmp] <;> omega
    · split at h
      · cases h
        rw [toNat_chr (by omega) (by omega)]
      · cases h

theorem letterRight_spec {v : Int} {op op' : CmpOp} {plain : Bool} {x : Char} (hv : inSuggestableRange v = true)
    (h : letterRight v op plain = some (x, op')) (c : Char) :
    strCmp op' [c] [x] = intCmp op c.toNat v := by
  rw [inSuggestableRange_iff] at hv
  rw [strCmp_single]
  unfold letterRight at h
  split at h
  · rename_i hp
    cases h
    rw [toNat_chr (by omega) (by omega)]
    rcases hp.2 with rfl | rfl <;> simp [changeOp, intCmp] <;> omega
  · split at h
    · rename_i hp
      cases h
      rw [toNat_chr (by omega) (by omega)]
      rcases hp.2 with rfl | rfl <;> simp [changeOp, intCmp] <;> omega
    · split at h
      · cases h
        rw [toNat_chr (by omega) (by omega)]
      · cases h

/-- The text `ord(arg)` reads as. -/
abbrev ordCall (arg : Expr) : Expr := .call (.name "ord".toList) [arg]

theorem builtins_ord {env : Env Val} (hb : Builtins env) :
    env "ord".toList = .ok (.builtin "ord".toList) := hb _ (by simp)

theorem eval_ord {env : Env Val} (hb : Builtins env) {arg : Expr} {c : Char}
    (h : eval (intSem R).toSem env arg = .ok (.str [c])) :
    eval (intSem R).toSem env (ordCall arg) = .ok (.int c.toNat) := by
  simp only [eval, evalAll, builtins_ord hb, h]
  exact intSem_call R rfl

/-- A character that can be put between apostrophes. -/
def Quotable (x : Char) : Prop := x ≠ '\'' ∧ x ≠ '\\'

theorem quoted_eq {x : Char} (h : Quotable x) : quoted x = .lit (.str [x]) := by
  simp [quoted, h.1, h.2]

theorem suggestable_some {e : Expr} {i : Int} (h : suggestable R e = .ok (some i)) :
    constInt R e = .ok (some i) ∧ inSuggestableRange i = true := by
  unfold suggestable at h
  split at h
  · cases h
  · cases h
  · rename_i v hv
    split at h
    · rename_i hr; cases h; exact ⟨hv, hr⟩
    · cases h

theorem ordCompare_some {left second last : Expr} {ops : List (CmpOp × Expr)} {o1 o2 : CmpOp}
    {s t : Option (Char × CmpOp)} (h1 : ops.head? = some (o1, second)) (h2 : ops.getLast? = some (o2, last))
    (h : ordCompare R left ops = .ok (s, t)) :
    (∀ x, s = some x → ∃ v plain, suggestable R left = .ok (some v) ∧ letterLeft v o1 plain = some x) ∧
    (∀ x, t = some x → ∃ v plain, suggestable R last = .ok (some v) ∧ letterRight v o2 plain = some x) := by
  unfold ordCompare at h
  simp only [h1, h2] at h
  split at h
  · cases h; exact ⟨fun _ h => (by cases h), fun _ h => (by cases h)⟩
  · split at h
    · cases h
    · cases h
    · rename_i a b ha hb
      simp only [Except.ok.injEq, Prod.mk.injEq] at h
      obtain ⟨hs, ht⟩ := h
      constructor
      · rintro x rfl
        cases a with
        | none => cases hs
        | some v => exact ⟨v, _, ha, hs⟩
      · rintro x rfl
        cases b with
        | none => cases ht
        | some v => exact ⟨v, _, hb, ht⟩

theorem intCmp_ordering {op : CmpOp} (h : isOrdering op) (a b : Int) : ∃ r, intCmp op a b = some r := by
  simp only [isOrdering, List.mem_cons, List.not_mem_nil, or_false] at h
  rcases h with rfl | rfl | rfl | rfl | rfl | rfl <;> exact ⟨_, rfl⟩

theorem eval_letter (env : Env Val) (x : Char) :
    eval (intSem R).toSem env (.const (.str [x])) = .ok (.str [x]) := by
  simp [eval]

/-- **C37**, a number on the left, partial: `n op ord(c)` and the text made of the suggestion and `c` give the
same value for every character `c`, for the six comparisons. Missing: the apostrophe and the
backslash, which do not give a string when they are put between apostrophes (`C37_counterexample`). -/
theorem C37_left_partial {env : Env Val} (hb : Builtins env) {left arg : Expr} {op op' : CmpOp} {x c : Char}
    {s : Option (Char × CmpOp)} (hop : isOrdering op) (hok : arg.Ok)
    (h : ordCompare R left [(op, ordCall arg)] = .ok (some (x, op'), s))
    (hc : eval (intSem R).toSem env arg = .ok (.str [c])) (hx : Quotable x) :
    ∃ e, ReadsAs 0 (quoted x :: (op'.toks ++ wrap 5 arg arg.text)) e ∧
      eval (intSem R).toSem env e = eval (intSem R).toSem env (.compare left [(op, ordCall arg)]) := by
  suffices hsuff : ∃ e, Reads 0 (quoted x :: (op'.toks ++ wrap 5 arg arg.text)) e ∧
      eval (intSem R).toSem env e = eval (intSem R).toSem env (.compare left [(op, ordCall arg)]) by
    obtain ⟨e, h1, h2⟩ := hsuff
    exact ⟨e, h1.as, h2⟩
  refine ⟨.compare (.const (.str [x])) [(op', arg)], ?_, ?_⟩
  · rw [quoted_eq hx]
    exact ((Reads.compare ((Reads.lit _).mono (by decide))
      (ReadsOps.one (reads_wrap (by decide) (reads_text arg hok)))).mono (by decide))
  · obtain ⟨v, plain, hl, hlet⟩ := (ordCompare_some R rfl rfl h).1 _ rfl
    obtain ⟨hv, hr⟩ := suggestable_some R hl
    have hspec := letterLeft_spec hr hlet c
    obtain ⟨w, hw, hwi⟩ := constInt_eval R hv env
    have h1 := eval_ord R hb hc
    obtain ⟨b, hbv⟩ := intCmp_ordering hop v c.toNat
    simp only [eval, evalCmp, hc, hw] at h1 ⊢
    simp only [h1, intSem_lit_str]
    rw [intSem_cmp R hwi rfl hbv, intSem_cmp_str R (hspec.trans hbv)]

/-- **C37**, a number on the right, partial: as `C37_left_partial`. -/
theorem C37_right_partial {env : Env Val} (hb : Builtins env) {right arg : Expr} {op op' : CmpOp} {x c : Char}
    {s : Option (Char × CmpOp)} (hop : isOrdering op) (hok : arg.Ok)
    (h : ordCompare R (ordCall arg) [(op, right)] = .ok (s, some (x, op')))
    (hc : eval (intSem R).toSem env arg = .ok (.str [c])) (hx : Quotable x) :
    ∃ e, ReadsAs 0 (wrap 5 arg arg.text ++ (op'.toks ++ [quoted x])) e ∧
      eval (intSem R).toSem env e = eval (intSem R).toSem env (.compare (ordCall arg) [(op, right)]) := by
  suffices hsuff : ∃ e, Reads 0 (wrap 5 arg arg.text ++ (op'.toks ++ [quoted x])) e ∧
      eval (intSem R).toSem env e = eval (intSem R).toSem env (.compare (ordCall arg) [(op, right)]) by
    obtain ⟨e, h1, h2⟩ := hsuff
    exact ⟨e, h1.as, h2⟩
  refine ⟨.compare arg [(op', .const (.str [x]))], ?_, ?_⟩
  · rw [quoted_eq hx]
    exact ((Reads.compare (reads_wrap (by decide) (reads_text arg hok))
      (ReadsOps.one ((Reads.lit _).mono (by decide)))).mono (by decide))
  · obtain ⟨v, plain, hl, hlet⟩ := (ordCompare_some R rfl rfl h).2 _ rfl
    obtain ⟨hv, hr⟩ := suggestable_some R hl
    have hspec := letterRight_spec hr hlet c
    obtain ⟨w, hw, hwi⟩ := constInt_eval R hv env
    have h1 := eval_ord R hb hc
    obtain ⟨b, hbv⟩ := intCmp_ordering hop c.toNat v
    simp only [eval, evalCmp, hc, hw] at h1 ⊢
    simp only [h1, intSem_lit_str]
    rw [intSem_cmp R rfl hwi hbv, intSem_cmp_str R (hspec.trans hbv)]

/-- **C37**, a chain `m op ord(c) op n`, partial: as `C37_left_partial`. -/
theorem C37_chain_partial {env : Env Val} (hb : Builtins env) {left right arg : Expr} {o1 o2 o1' o2' : CmpOp}
    {x y c : Char} (ho1 : isOrdering o1) (ho2 : isOrdering o2) (hok : arg.Ok)
    (h : ordCompare R left [(o1, ordCall arg), (o2, right)] = .ok (some (x, o1'), some (y, o2')))
    (hc : eval (intSem R).toSem env arg = .ok (.str [c])) (hx : Quotable x) (hy : Quotable y) :
    ∃ e, ReadsAs 0 (quoted x :: (o1'.toks ++ (wrap 5 arg arg.text ++ (o2'.toks ++ [quoted y])))) e ∧
      eval (intSem R).toSem env e =
        eval (intSem R).toSem env (.compare left [(o1, ordCall arg), (o2, right)]) := by
  suffices hsuff : ∃ e, Reads 0 (quoted x :: (o1'.toks ++ (wrap 5 arg arg.text ++ (o2'.toks ++ [quoted y])))) e ∧
      eval (intSem R).toSem env e =
        eval (intSem R).toSem env (.compare left [(o1, ordCall arg), (o2, right)]) by
    obtain ⟨e, h1, h2⟩ := hsuff
    exact ⟨e, h1.as, h2⟩
  refine ⟨.compare (.const (.str [x])) [(o1', arg), (o2', .const (.str [y]))], ?_, ?_⟩
  · rw [quoted_eq hx, quoted_eq hy]
    exact ((Reads.compare ((Reads.lit _).mono (by decide))
      (ReadsOps.cons (reads_wrap (by decide) (reads_text arg hok))
        (ReadsOps.one ((Reads.lit _).mono (by decide))))).mono (by decide))
  · obtain ⟨v, plain, hl, hlet⟩ := (ordCompare_some R rfl rfl h).1 _ rfl
    obtain ⟨u, plain', hl', hlet'⟩ := (ordCompare_some R rfl rfl h).2 _ rfl
    obtain ⟨hv, hr⟩ := suggestable_some R hl
    obtain ⟨hu, hr'⟩ := suggestable_some R hl'
    have hspec := letterLeft_spec hr hlet c
    have hspec' := letterRight_spec hr' hlet' c
    obtain ⟨w, hw, hwi⟩ := constInt_eval R hv env
    obtain ⟨z, hz, hzi⟩ := constInt_eval R hu env
    have h1 := eval_ord R hb hc
    obtain ⟨b, hbv⟩ := intCmp_ordering ho1 v c.toNat
    obtain ⟨b', hbv'⟩ := intCmp_ordering ho2 c.toNat u
    simp only [eval, evalCmp, hc, hw, hz] at h1 ⊢
    simp only [h1, intSem_lit_str]
    rw [intSem_cmp R hwi rfl hbv, intSem_cmp_str R (hspec.trans hbv), intSem_cmp R rfl hzi hbv',
      intSem_cmp_str R (hspec'.trans hbv')]

/-- `96 < ord(c) <= 122` becomes `'a' <= c <= 'z'`. -/
example : ordCompare R (.const (.int 96)) [(.lt, ordCall (.name ['c'])), (.le, .const (.int 122))] =
    .ok (some ('a', .le), some ('z', .le)) ∧ Quotable 'a' ∧ Quotable 'z' :=
  ⟨rfl, by simp [Quotable], by simp [Quotable]⟩

/-- **C37** is false of the code: for `ord(c) == 39` the suggestion is `== '''`, which together with `c` is not
an expression. -/
theorem C37_counterexample : ∃ n x op', ordCompare R (ordCall (.name ['c'])) [(.eq, .const (.int n))] =
      .ok (Option.none, some (x, op')) ∧
    ∀ p e, ¬ Reads p ((Expr.name ['c']).text ++ (op'.toks ++ [quoted x])) e :=
  ⟨39, '\'', .eq, rfl, fun p e h => h.no_bad (by decide)⟩

/-! ### C36: numbers added to or subtracted from numbers of characters -/

/-- A value is an integer, or there is none. -/
def IntOrError (r : Except PyErr Val) : Prop := (∃ x, r = .error x) ∨ ∃ v i, r = .ok v ∧ v.asInt = some i

/-- The expression a suggestion stands for. -/
def ordSuggestionExpr (c : Char) (d : Int) : Expr :=
  if d = -1 then .bin .sub (ordCall (.const (.str [c]))) (.const (.int 1))
  else if d = 1 then .bin .add (ordCall (.const (.str [c]))) (.const (.int 1))
  else ordCall (.const (.str [c]))

theorem reads_ordToks {c : Char} (h : Quotable c) : Reads 13 (ordToks c) (ordCall (.const (.str [c]))) := by
  rw [ordToks, quoted_eq h]
  exact Reads.call (t := [.ident "ord".toList]) (u := [.lit (.str [c])]) (.name _) (.one ((Reads.lit _).mono (by decide)))

theorem reads_suggestion {c : Char} (d : Int) (h : Quotable c) :
    Reads 9 (ordSuggestionToks c d) (ordSuggestionExpr c d) := by
  unfold ordSuggestionToks ordSuggestionExpr
  split
  · exact Reads.bin (op := .sub) (by decide) ((reads_ordToks h).mono (by decide)) ((Reads.lit _).mono (by decide))
  · split
    · exact Reads.bin (op := .add) (by decide) ((reads_ordToks h).mono (by decide)) ((Reads.lit _).mono (by decide))
    · rw [List.append_nil]; exact (reads_ordToks h).mono (by decide)

theorem eval_ordConst {env : Env Val} (hb : Builtins env) (c : Char) :
    eval (intSem R).toSem env (ordCall (.const (.str [c]))) = .ok (.int c.toNat) :=
  eval_ord R hb (eval_letter R env c)

/-- What is suggested for a number and what it adds up to. -/
theorem ordSuggestion_spec {b : Bool} {v d : Int} {c : Char} (hv : inSuggestableRange v = true)
    (h : ordSuggestion b v = some (c, d)) : (c.toNat : Int) + d = v ∧ (d = -1 ∨ d = 1 ∨ d = 0) := by
  rw [inSuggestableRange_iff] at hv
  unfold ordSuggestion at h
  split at h
  · cases h; rw [toNat_chr (by omega) (by omega)]; omega
  · split at h
    · cases h; rw [toNat_chr (by omega) (by omega)]; omega
    · split at h
      · cases h; rw [toNat_chr (by omega) (by omega)]; omega
      · cases h

theorem eval_suggestion {env : Env Val} (hb : Builtins env) {v d : Int} {c : Char}
    (h : (c.toNat : Int) + d = v ∧ (d = -1 ∨ d = 1 ∨ d = 0)) :
    eval (intSem R).toSem env (ordSuggestionExpr c d) = .ok (.int v) := by
  obtain ⟨h, hd⟩ := h
  have h0 := eval_ordConst R hb c
  rcases hd with rfl | rfl | rfl
  · simp only [ordSuggestionExpr, if_true]
    rw [eval, h0]
    simp only [eval, intSem_lit_int]
    rw [intSem_binary R rfl rfl rfl]
    simp only [Except.ok.injEq, Val.int.injEq]
    omega
  · simp only [ordSuggestionExpr, if_true]
    rw [if_neg (by decide), eval, h0]
    simp only [eval, intSem_lit_int]
    rw [intSem_binary R rfl rfl rfl]
    simp only [Except.ok.injEq, Val.int.injEq]
    omega
  · simp only [ordSuggestionExpr]
    rw [if_neg (by decide), if_neg (by decide), h0]
    simp only [Except.ok.injEq, Val.int.injEq]
    omega

theorem useOrdLetterAt_some {op : BinOp} {isLeft : Bool} {o k : Expr} {v : Int} {t : List Tok}
    (h : useOrdLetterAt R op isLeft o k = .ok (some (v, t))) :
    constInt R k = .ok (some v) ∧ inSuggestableRange v = true ∧ ∃ c d, ordSuggestion (isBinOp o) v = some (c, d) ∧
      t = (if (op = .sub ∧ isLeft = false ∧ d = 1) ∨ (op = .add ∧ isLeft = true ∧ d = -1)
        then .sym "(" :: (ordSuggestionToks c d ++ [.sym ")"]) else ordSuggestionToks c d) := by
  unfold useOrdLetterAt at h
  split at h
  · cases h
  · cases h
  · rename_i w hw
    split at h
    · cases h
    · rename_i hr
      split at h
      · cases h
      · rename_i c d hs
        have hrange : inSuggestableRange w = true := by
          cases hin : inSuggestableRange w <;> simp [hin] at hr ⊢
        have key : w = v → constInt R k = .ok (some v) ∧ inSuggestableRange v = true ∧
            ordSuggestion (isBinOp o) v = some (c, d) := by
          rintro rfl; exact ⟨hw, hrange, hs⟩
        split at h
        · rename_i hcond
          simp only [Except.ok.injEq, Option.some.injEq, Prod.mk.injEq] at h
          obtain ⟨k1, k2, k3⟩ := key h.1
          refine ⟨k1, k2, c, d, k3, ?_⟩
          rw [if_pos (by simpa using hcond), h.2]
        · rename_i hcond
          simp only [Except.ok.injEq, Option.some.injEq, Prod.mk.injEq] at h
          obtain ⟨k1, k2, k3⟩ := key h.1
          refine ⟨k1, k2, c, d, k3, ?_⟩
          rw [if_neg (by simpa using hcond), h.2]

theorem asInt_of_range {v : Val} {i : Int} (h : v.asInt = some i) (hi : inSuggestableRange i = true) : v = .int i := by
  rw [inSuggestableRange_iff] at hi
  cases v with
  | bool b => cases b <;> simp [Val.asInt] at h <;> omega
  | int j => simp [Val.asInt] at h; rw [h]
  | _ => simp [Val.asInt] at h

/-- The text of a suggestion contains no characters that do not form a token. -/
def Readable (t : List Tok) : Prop := Tok.bad ∉ t

theorem quotable_of_readable {c : Char} {d : Int} (h : Tok.bad ∉ ordSuggestionToks c d) : Quotable c := by
  unfold Quotable
  by_cases h1 : c = '\''
  · simp [ordSuggestionToks, ordToks, quoted, h1] at h
  · by_cases h2 : c = '\\'
    · simp [ordSuggestionToks, ordToks, quoted, h2] at h
    · exact ⟨h1, h2⟩

/-- **C36**, a number on the left: replacing it by the suggestion gives a text with the same value, provided
that the suggestion is made of tokens. -/
theorem C36_left_partial {env : Env Val} (hb : Builtins env) {op : BinOp} {l r : Expr} {v : Int} {t : List Tok}
    {s : Option (Int × List Tok)} (hok : r.Ok) (h : useOrdLetter R op l r = .ok (s, some (v, t)))
    (ht : Readable t) :
    ∃ e, ReadsAs 9 (t ++ op.tok :: wrap 10 r r.text) e ∧
      eval (intSem R).toSem env e = eval (intSem R).toSem env (.bin op l r) := by
  suffices hsuff : ∃ e, Reads 9 (t ++ op.tok :: wrap 10 r r.text) e ∧
      eval (intSem R).toSem env e = eval (intSem R).toSem env (.bin op l r) by
    obtain ⟨e, h1, h2⟩ := hsuff
    exact ⟨e, h1.as, h2⟩
  unfold useOrdLetter at h
  split at h
  · cases h
  · rename_i hop
    have hop : op = .add ∨ op = .sub := by cases op <;> simp at hop ⊢
    split at h
    · cases h
    · split at h
      · cases h
      · rename_i b hb'
        simp only [Except.ok.injEq, Prod.mk.injEq] at h
        rw [h.2] at hb'
        obtain ⟨hk, hrange, c, d, hs, rfl⟩ := useOrdLetterAt_some R hb'
        obtain ⟨w, hw, hwi⟩ := constInt_eval R hk env
        have := asInt_of_range hwi hrange
        subst this
        have hspec := ordSuggestion_spec hrange hs
        have hq : Quotable c := by
          apply quotable_of_readable (d := d)
          unfold Readable at ht
          split at ht
          · simpa using ht
          · exact ht
        have hread := reads_suggestion d hq
        have hr' := reads_wrap (p := 10) (by decide) (reads_text r hok)
        have hev := eval_suggestion R hb hspec
        refine ⟨.bin op (ordSuggestionExpr c d) r, ?_, ?_⟩
        · have h9 : Reads 9 (if (op = .sub ∧ true = false ∧ d = 1) ∨ (op = .add ∧ true = true ∧ d = -1)
              then .sym "(" :: (ordSuggestionToks c d ++ [.sym ")"]) else ordSuggestionToks c d)
              (ordSuggestionExpr c d) := by
            split
            · exact (Reads.paren (hread.mono (by decide))).mono (by decide)
            · exact hread
          rcases hop with rfl | rfl
          · exact Reads.bin (op := .add) (by decide) h9 hr'
          · exact Reads.bin (op := .sub) (by decide) h9 hr'
        · simp only [eval, hev, hw]

/-- **C36**, a number on the right, partial: as `C36_left_partial`. Missing: `a - n` when the suggestion is
`ord(…) - 1`, for which it is false (`C36_counterexample`). -/
theorem C36_right_partial {env : Env Val} (hb : Builtins env) {op : BinOp} {l r : Expr} {v : Int} {t : List Tok}
    {s : Option (Int × List Tok)} (hok : l.Ok) (h : useOrdLetter R op l r = .ok (some (v, t), s))
    (ht : Readable t) (hl : IntOrError (eval (intSem R).toSem env l)) (hd : op = .sub → isPreferred (v + 1) = false) :
    ∃ e, ReadsAs 9 (wrap 9 l l.text ++ op.tok :: t) e ∧
      eval (intSem R).toSem env e = eval (intSem R).toSem env (.bin op l r) := by
  suffices hsuff : ∃ e, Reads 9 (wrap 9 l l.text ++ op.tok :: t) e ∧
      eval (intSem R).toSem env e = eval (intSem R).toSem env (.bin op l r) by
    obtain ⟨e, h1, h2⟩ := hsuff
    exact ⟨e, h1.as, h2⟩
  unfold useOrdLetter at h
  split at h
  · cases h
  · rename_i hop
    have hop : op = .add ∨ op = .sub := by cases op <;> simp at hop ⊢
    split at h
    · cases h
    · rename_i b hb'
      split at h
      · cases h
      · simp only [Except.ok.injEq, Prod.mk.injEq] at h
        rw [h.1] at hb'
        obtain ⟨hk, hrange, c, d, hs, rfl⟩ := useOrdLetterAt_some R hb'
        obtain ⟨w, hw, hwi⟩ := constInt_eval R hk env
        have := asInt_of_range hwi hrange
        subst this
        have hspec := ordSuggestion_spec hrange hs
        have hq : Quotable c := by
          apply quotable_of_readable (d := d)
          unfold Readable at ht
          split at ht
          · simpa using ht
          · exact ht
        have hread := reads_suggestion d hq
        have hl' := reads_wrap (p := 9) (by decide) (reads_text l hok)
        have hev := eval_suggestion R hb hspec
        have hoc := eval_ordConst R hb c
        -- the ways of reading the text
        rcases hop with rfl | rfl
        · simp only [reduceCtorEq, false_and, or_self, if_false, Bool.false_eq_true, and_false]
          obtain ⟨hsum, rfl | rfl | rfl⟩ := hspec
          · refine ⟨.bin .sub (.bin .add l (ordCall (.const (.str [c])))) (.const (.int 1)), ?_, ?_⟩
            · have := Reads.bin (op := .sub) (by decide)
                (Reads.bin (op := .add) (by decide) hl' ((reads_ordToks hq).mono (by decide)))
                ((Reads.lit (.int 1)).mono (q := 13) (by decide))
              simpa [ordSuggestionToks, BinOp.tok, BinOp.prec] using this
            · rcases hl with ⟨x, hx⟩ | ⟨a, i, ha, hai⟩
              · simp only [eval, hx]
              · simp only [ordCall] at hoc
                simp only [eval, ha, hw] at hoc ⊢
                simp only [hoc]
                rw [intSem_binary R hai rfl rfl, intSem_binary R hai rfl rfl]
                simp only [intSem_lit_int]
                rw [intSem_binary R rfl rfl rfl]
                simp only [Except.ok.injEq, Val.int.injEq]; omega
          · refine ⟨.bin .add (.bin .add l (ordCall (.const (.str [c])))) (.const (.int 1)), ?_, ?_⟩
            · have := Reads.bin (op := .add) (by decide)
                (Reads.bin (op := .add) (by decide) hl' ((reads_ordToks hq).mono (by decide)))
                ((Reads.lit (.int 1)).mono (q := 13) (by decide))
              simpa [ordSuggestionToks, BinOp.tok, BinOp.prec] using this
            · rcases hl with ⟨x, hx⟩ | ⟨a, i, ha, hai⟩
              · simp only [eval, hx]
              · simp only [ordCall] at hoc
                simp only [eval, ha, hw] at hoc ⊢
                simp only [hoc]
                rw [intSem_binary R hai rfl rfl, intSem_binary R hai rfl rfl]
                simp only [intSem_lit_int]
                rw [intSem_binary R rfl rfl rfl]
                simp only [Except.ok.injEq, Val.int.injEq]; omega
          · refine ⟨.bin .add l (ordSuggestionExpr c 0), ?_, ?_⟩
            · exact Reads.bin (op := .add) (by decide) hl' (by
                simp only [ordSuggestionToks, ordSuggestionExpr]
                exact (by simpa using (reads_ordToks hq).mono (by decide)))
            · simp only [eval, hev, hw]
        · have hd1 : d ≠ -1 := by
            rintro rfl
            have := hd rfl
            unfold ordSuggestion at hs
            rw [this] at hs
            simp only [Bool.false_eq_true, if_false] at hs
            split at hs
            · simp at hs
            · split at hs <;> simp at hs
          obtain ⟨hsum, hd' | rfl | rfl⟩ := hspec
          · exact absurd hd' hd1
          · refine ⟨.bin .sub l (ordSuggestionExpr c 1), ?_, ?_⟩
            · simp only [and_self, true_or, if_true]
              exact Reads.bin (op := .sub) (by decide) hl' ((Reads.paren (hread.mono (by decide))).mono (by decide))
            · simp only [eval, hev, hw]
          · refine ⟨.bin .sub l (ordSuggestionExpr c 0), ?_, ?_⟩
            · simp
              exact Reads.bin (op := .sub) (by decide) hl' (by
                simp only [ordSuggestionToks, ordSuggestionExpr]
                exact (by simpa using (reads_ordToks hq).mono (by decide)))
            · simp only [eval, hev, hw]

/-- `ord(c) + 98` becomes `ord(c) + ord('a') + 1`, and `ord(c) - 98` becomes `ord(c) - (ord('a') + 1)`. -/
example : useOrdLetter R .add (ordCall (.name ['c'])) (.const (.int 98)) =
      .ok (some (98, ordToks 'a' ++ [.sym "+", .lit (.int 1)]), Option.none) ∧
    useOrdLetter R .sub (ordCall (.name ['c'])) (.const (.int 98)) =
      .ok (some (98, .sym "(" :: (ordToks 'a' ++ [.sym "+", .lit (.int 1)] ++ [.sym ")"])), Option.none) ∧
    Readable (ordToks 'a' ++ [.sym "+", .lit (.int 1)]) ∧ isPreferred (98 + 1) = false :=
  ⟨rfl, rfl, by unfold Readable; decide, by decide⟩

/-- **C36** is false of the code: `ord(c) - 96` becomes `ord(c) - ord('a') - 1`, which has another value. -/
theorem C36_counterexample {env : Env Val} (hb : Builtins env) (hc : env ['c'] = .ok (.str ['b'])) :
    ∃ t e, useOrdLetter R .sub (ordCall (.name ['c'])) (.const (.int 96)) = .ok (some (96, t), Option.none) ∧
      ReadsAs 9 ((ordCall (.name ['c'])).text ++ BinOp.tok .sub :: t) e ∧
      eval (intSem R).toSem env (.bin .sub (ordCall (.name ['c'])) (.const (.int 96))) = .ok (.int 2) ∧
      eval (intSem R).toSem env e = .ok (.int 0) := by
  suffices hsuff : ∃ t e, useOrdLetter R .sub (ordCall (.name ['c'])) (.const (.int 96)) = .ok (some (96, t), Option.none) ∧
      Reads 9 ((ordCall (.name ['c'])).text ++ BinOp.tok .sub :: t) e ∧
      eval (intSem R).toSem env (.bin .sub (ordCall (.name ['c'])) (.const (.int 96))) = .ok (.int 2) ∧
      eval (intSem R).toSem env e = .ok (.int 0) by
    obtain ⟨t, e, h0, h1, h2, h3⟩ := hsuff
    exact ⟨t, e, h0, h1.as, h2, h3⟩
  have h1 : eval (intSem R).toSem env (ordCall (.name ['c'])) = .ok (.int 98) :=
    eval_ord R hb (c := 'b') (by rw [eval]; exact hc)
  have h2 := eval_ordConst R hb 'a'
  have hq : Quotable 'a' := by simp [Quotable]
  refine ⟨ordSuggestionToks 'a' (-1),
    .bin .sub (.bin .sub (ordCall (.name ['c'])) (ordCall (.const (.str ['a'])))) (.const (.int 1)), rfl, ?_, ?_, ?_⟩
  · have := Reads.bin (op := .sub) (by decide)
      (Reads.bin (op := .sub) (by decide)
        (reads_text_at (p := 9) (e := ordCall (.name ['c'])) (by simp [Expr.Ok, OkAll]) (by decide))
        ((reads_ordToks hq).mono (by decide)))
      ((Reads.lit (.int 1)).mono (q := 13) (by decide))
    simpa [ordSuggestionToks, BinOp.tok, BinOp.prec] using this
  · rw [eval, h1]
    simp only [eval, intSem_lit_int]
    rw [intSem_binary R rfl rfl rfl]
    rfl
  · have h3 : eval (intSem R).toSem env (.bin .sub (ordCall (.name ['c'])) (ordCall (.const (.str ['a'])))) =
        .ok (.int 1) := by
      rw [eval, h1, h2]
      simp only []
      rw [intSem_binary R rfl rfl rfl]
      rfl
    rw [eval, h3]
    simp only [eval, intSem_lit_int]
    rw [intSem_binary R rfl rfl rfl]
    rfl

/-- **C36**: the apostrophe does not give a string either. -/
theorem C36_quote_counterexample : ∃ n t, useOrdLetter R .add (ordCall (.name ['c'])) (.const (.int n)) =
      .ok (some ((n : Int), t), Option.none) ∧
    ∀ p e, ¬ Reads p ((ordCall (.name ['c'])).text ++ BinOp.tok .add :: t) e :=
  ⟨39, ordToks '\'', rfl, fun p e h => h.no_bad (by decide)⟩

/-- **C36** Operands are taken to contain `ord` if they are a call of it, or an operation one of whose operands is. -/
theorem C36_contains_ord (e : Expr) : containsOrd e = true ↔ (∃ args, e = .call (.name "ord".toList) args) ∨
    ∃ op l r args, e = .bin op l r ∧ (l = .call (.name "ord".toList) args ∨ r = .call (.name "ord".toList) args) := by
  have ho : ∀ e, isOrd e = true ↔ ∃ args, e = .call (.name "ord".toList) args := by
    intro e
    constructor
    · intro h
      unfold isOrd at h
      split at h
      · rename_i f args
        exact ⟨args, by rw [of_decide_eq_true h]⟩
      · cases h
    · rintro ⟨args, rfl⟩
      simp [isOrd]
  unfold containsOrd
  rw [Bool.or_eq_true, ho]
  refine or_congr Iff.rfl ?_
  constructor
  · intro h
    split at h
    · rename_i op l r
      rw [Bool.or_eq_true, ho, ho] at h
      rcases h with ⟨args, h⟩ | ⟨args, h⟩
      · exact ⟨op, l, r, args, rfl, .inl h⟩
      · exact ⟨op, l, r, args, rfl, .inr h⟩
    · cases h
  · rintro ⟨op, l, r, args, rfl, h⟩
    simp only [Bool.or_eq_true, ho]
    exact h.imp (fun h => ⟨_, h⟩) fun h => ⟨_, h⟩

/-- `x + ord(c)` does. -/
example : containsOrd (.bin .add (.name ['x']) (ordCall (.name ['c']))) = true := (C36_contains_ord _).mpr (.inr ⟨_, _, _, _, rfl, .inr rfl⟩)

end Verif.Py
