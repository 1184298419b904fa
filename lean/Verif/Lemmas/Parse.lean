import Verif.Lemmas.Expr

/-!
The grammar is unambiguous: a text reads as at most one expression (`Reads.unique`).

`Parse` reads from the left and never has a choice (`Parse.det`); whatever `Reads` reads, it reads (`Reads.parse`).
-/

namespace Verif.Py

/-- What is being read: an expression of a level; what follows an expression of a level; arguments, up to the closing
bracket; comparison operators with operands; operands of `and` or `or`, each after its keyword. -/
inductive Mode where
  | level (p : Nat)
  | chain (p : Nat) (e : Expr)
  | args
  | ops
  | tail (isOr : Bool)

/-- What has been read. -/
inductive Out where
  | e (x : Expr)
  | es (xs : List Expr)
  | ops (os : List (CmpOp × Expr))

/-- The level on which a token continues an expression. -/
def tokLevel : Tok → Option Nat
  | .sym s =>
    if s = "(" ∨ s = "[" ∨ s = "." then some 13
    else if s = "**" then some 12
    else if s = "*" ∨ s = "/" ∨ s = "//" ∨ s = "%" ∨ s = "@" then some 10
    else if s = "+" ∨ s = "-" then some 9
    else if s = "<<" ∨ s = ">>" then some 8
    else if s = "&" then some 7
    else if s = "^" then some 6
    else if s = "|" then some 5
    else if s = "<" ∨ s = "<=" ∨ s = "==" ∨ s = "!=" ∨ s = ">=" ∨ s = ">" ∨ s = "is" ∨ s = "in" ∨ s = "not" then some 4
    else if s = "and" then some 2
    else if s = "or" then some 1
    else if s = "if" then some 0
    else none
  | _ => none

/-- No expression of the level goes on. -/
def Stop (p : Nat) (ts : List Tok) : Prop :=
  ∀ tok q, ts.head? = some tok → tokLevel tok = some q → q < p

def mkCmp (l : Expr) : List (CmpOp × Expr) → Expr
  | [] => l
  | os => .compare l os

def mkBool (isOr : Bool) (v : Expr) : List Expr → Expr
  | [] => v
  | vs => .boolOp isOr (v :: vs)

inductive Parse : Mode → List Tok → Out → List Tok → Prop
  | lit {v ts o r} : Parse (.chain 13 (.const v)) ts o r → Parse (.level 13) (.lit v :: ts) o r
  | name {x ts o r} : Parse (.chain 13 (.name x)) ts o r → Parse (.level 13) (.ident x :: ts) o r
  | bracketed {t es ts o r} : Parse (.chain 13 (.other t es)) ts o r → Parse (.level 13) (.bracketed t es :: ts) o r
  | paren {x ts r1 o r} : Parse (.level 0) ts (.e x) (.sym ")" :: r1) → Parse (.chain 13 x) r1 o r →
      Parse (.level 13) (.sym "(" :: ts) o r
  | call {f as ts ts' r1 o r} : ts = .sym "(" :: ts' → Parse .args ts' (.es as) (.sym ")" :: r1) →
      Parse (.chain 13 (.call f as)) r1 o r → Parse (.chain 13 f) ts o r
  | attr {e a ts ts' o r} : ts = .sym "." :: .ident a :: ts' → Parse (.chain 13 (.attr e a)) ts' o r →
      Parse (.chain 13 e) ts o r
  | subscript {e i ts ts' r1 o r} : ts = .sym "[" :: ts' → Parse (.level 0) ts' (.e i) (.sym "]" :: r1) →
      Parse (.chain 13 (.subscript e i)) r1 o r → Parse (.chain 13 e) ts o r
  | chainStop {p e ts} : Stop p ts → Parse (.chain p e) ts (.e e) ts
  | pow {l x ts r1 r} : Parse (.level 13) ts (.e l) (.sym "**" :: r1) → Parse (.level 11) r1 (.e x) r →
      Parse (.level 12) ts (.e (.bin .pow l x)) r
  | powStop {l ts r} : Parse (.level 13) ts (.e l) r → r.head? ≠ some (.sym "**") → Parse (.level 12) ts (.e l) r
  | unary {op x ts ts' r} : op ≠ .not → ts = op.tok :: ts' → Parse (.level 11) ts' (.e x) r →
      Parse (.level 11) ts (.e (.unary op x)) r
  | unaryStop {ts o r} : (∀ op : UnOp, op ≠ .not → ts.head? ≠ some op.tok) → Parse (.level 12) ts o r →
      Parse (.level 11) ts o r
  | bin {p l ts r1 o r} : 5 ≤ p → p ≤ 10 → Parse (.level (p + 1)) ts (.e l) r1 → Parse (.chain p l) r1 o r →
      Parse (.level p) ts o r
  | binOp {p op l x ts ts' r1 o r} : op ≠ .pow → op.prec = p → ts = op.tok :: ts' → Parse (.level (p + 1)) ts' (.e x) r1 →
      Parse (.chain p (.bin op l x)) r1 o r → Parse (.chain p l) ts o r
  | compare {l ts r1 os r} : Parse (.level 5) ts (.e l) r1 → Parse .ops r1 (.ops os) r →
      Parse (.level 4) ts (.e (mkCmp l os)) r
  | opsStop {ts} : Stop 4 ts → Parse .ops ts (.ops []) ts
  | op {op x ts ts' r1 os r} : (op = .is → ts'.head? ≠ some (.sym "not")) → ts = op.toks ++ ts' →
      Parse (.level 5) ts' (.e x) r1 → Parse .ops r1 (.ops os) r → Parse .ops ts (.ops ((op, x) :: os)) r
  | not {x ts r} : Parse (.level 3) ts (.e x) r → Parse (.level 3) (.sym "not" :: ts) (.e (.unary .not x)) r
  | notStop {ts o r} : ts.head? ≠ some (.sym "not") → Parse (.level 4) ts o r → Parse (.level 3) ts o r
  | bool {isOr p v ts r1 vs r} : p = boolPrec isOr → Parse (.level (p + 1)) ts (.e v) r1 → Parse (.tail isOr) r1 (.es vs) r →
      Parse (.level p) ts (.e (mkBool isOr v vs)) r
  | tailStop {isOr ts} : ts.head? ≠ some (boolTok isOr) → Parse (.tail isOr) ts (.es []) ts
  | tailCons {isOr ts ts' v r1 vs r} : ts = boolTok isOr :: ts' → Parse (.level (boolPrec isOr + 1)) ts' (.e v) r1 →
      Parse (.tail isOr) r1 (.es vs) r → Parse (.tail isOr) ts (.es (v :: vs)) r
  | ifExp {a c b ts r1 r2 r} : Parse (.level 1) ts (.e a) (.sym "if" :: r1) →
      Parse (.level 1) r1 (.e c) (.sym "else" :: r2) → Parse (.level 0) r2 (.e b) r →
      Parse (.level 0) ts (.e (.ifExp c a b)) r
  | ifStop {a ts r} : Parse (.level 1) ts (.e a) r → r.head? ≠ some (.sym "if") → Parse (.level 0) ts (.e a) r
  | argsNil {r} : Parse .args (.sym ")" :: r) (.es []) (.sym ")" :: r)
  | argsOne {x ts r} : ts.head? ≠ some (.sym ")") → Parse (.level 0) ts (.e x) (.sym ")" :: r) →
      Parse .args ts (.es [x]) (.sym ")" :: r)
  | argsCons {x y ys ts r1 r} : ts.head? ≠ some (.sym ")") → Parse (.level 0) ts (.e x) (.sym "," :: r1) →
      Parse .args r1 (.es (y :: ys)) r → Parse .args ts (.es (x :: y :: ys)) r

theorem UnOp.tok_inj {a b : UnOp} (h : a.tok = b.tok) : a = b := by
  cases a <;> cases b <;> first | rfl | simp [UnOp.tok] at h

theorem BinOp.tok_inj {a b : BinOp} (h : a.tok = b.tok) : a = b := by
  cases a <;> cases b <;> first | rfl | simp [BinOp.tok] at h

theorem BinOp.tokLevel (op : BinOp) : tokLevel op.tok = some op.prec := by
  cases op <;> simp [BinOp.tok, Py.tokLevel, BinOp.prec]

theorem BinOp.tok_ne (op : BinOp) : op.tok ≠ .sym "(" ∧ op.tok ≠ .sym "[" ∧ op.tok ≠ .sym "." := by
  cases op <;> simp [BinOp.tok]

theorem BinOp.prec_le10 {op : BinOp} (h : op ≠ .pow) : 5 ≤ op.prec ∧ op.prec ≤ 10 := by
  cases op <;> first | exact absurd rfl h | decide

/-- The first token of a comparison operator. -/
theorem CmpOp.toks_head (op : CmpOp) : ∃ s l, op.toks = .sym s :: l ∧ Py.tokLevel (.sym s) = some 4 := by
  cases op <;> exact ⟨_, _, rfl, by simp [Py.tokLevel]⟩

theorem CmpOp.not_stop {op : CmpOp} {ts ts' : List Tok} (h : ts = op.toks ++ ts') : ¬ Stop 4 ts := by
  intro hs
  obtain ⟨s, l, hl, hlev⟩ := op.toks_head
  subst h
  exact absurd (hs (.sym s) 4 (by rw [hl]; rfl) hlev) (by omega)

theorem CmpOp.toks_inj {a b : CmpOp} {t u : List Tok} (h : a.toks ++ t = b.toks ++ u)
    (ha : a = .is → t.head? ≠ some (.sym "not")) (hb : b = .is → u.head? ≠ some (.sym "not")) : a = b ∧ t = u := by
  cases a <;> cases b <;> simp [CmpOp.toks] at h ha hb ⊢ <;> first | exact h | (subst h; simp at ha hb)

theorem boolPrec_cases {p : Nat} {b : Bool} (h : p = boolPrec b) : p = 1 ∨ p = 2 := by
  subst h
  cases b
  · exact .inr rfl
  · exact .inl rfl

theorem boolPrec_inj {a b : Bool} (h : boolPrec a = boolPrec b) : a = b := by
  cases a <;> cases b <;> first | rfl | simp [boolPrec] at h

/-- Reading from the left never has a choice. -/
theorem Parse.det {m : Mode} {ts : List Tok} {o : Out} {r : List Tok} (h : Parse m ts o r) :
    ∀ {o' r'}, Parse m ts o' r' → o = o' ∧ r = r' := by
  induction h with
  | lit _ ih =>
    intro o' r' h'
    cases h' with
    | lit h => exact ih h
    | bin h1 h2 => omega
    | bool hp => exact absurd (boolPrec_cases hp) (by decide)
  | name _ ih =>
    intro o' r' h'
    cases h' with
    | name h => exact ih h
    | bin h1 h2 => omega
    | bool hp => exact absurd (boolPrec_cases hp) (by decide)
  | bracketed _ ih =>
    intro o' r' h'
    cases h' with
    | bracketed h => exact ih h
    | bin h1 h2 => omega
    | bool hp => exact absurd (boolPrec_cases hp) (by decide)
  | paren _ _ ih1 ih2 =>
    intro o' r' h'
    cases h' with
    | paren h1 h2 =>
      obtain ⟨h, h'⟩ := ih1 h1
      cases h; cases h'
      exact ih2 h2
    | bin h1 h2 => omega
    | bool hp => exact absurd (boolPrec_cases hp) (by decide)
  | call ht _ _ ih1 ih2 =>
    intro o' r' h'
    subst ht
    cases h' with
    | call ht' h1 h2 =>
      simp only [List.cons.injEq, true_and] at ht'
      subst ht'
      obtain ⟨h, h'⟩ := ih1 h1
      cases h; cases h'
      exact ih2 h2
    | attr ht' => simp at ht'
    | subscript ht' => simp at ht'
    | chainStop hs => exact absurd (hs _ 13 rfl (by simp [tokLevel])) (by omega)
    | binOp hop hp ht => simp only [List.cons.injEq] at ht; exact absurd ht.1.symm (BinOp.tok_ne _).1
  | attr ht _ ih =>
    intro o' r' h'
    subst ht
    cases h' with
    | attr ht' h =>
      simp only [List.cons.injEq, Tok.ident.injEq, true_and] at ht'
      obtain ⟨rfl, rfl⟩ := ht'
      exact ih h
    | call ht' => simp at ht'
    | subscript ht' => simp at ht'
    | chainStop hs => exact absurd (hs _ 13 rfl (by simp [tokLevel])) (by omega)
    | binOp hop hp ht => simp only [List.cons.injEq] at ht; exact absurd ht.1.symm (BinOp.tok_ne _).2.2
  | subscript ht _ _ ih1 ih2 =>
    intro o' r' h'
    subst ht
    cases h' with
    | subscript ht' h1 h2 =>
      simp only [List.cons.injEq, true_and] at ht'
      subst ht'
      obtain ⟨h, h'⟩ := ih1 h1
      cases h; cases h'
      exact ih2 h2
    | call ht' => simp at ht'
    | attr ht' => simp at ht'
    | chainStop hs => exact absurd (hs _ 13 rfl (by simp [tokLevel])) (by omega)
    | binOp hop hp ht => simp only [List.cons.injEq] at ht; exact absurd ht.1.symm (BinOp.tok_ne _).2.1
  | chainStop hs =>
    intro o' r' h'
    cases h' with
    | call ht => subst ht; exact absurd (hs _ 13 rfl (by simp [tokLevel])) (by omega)
    | attr ht => subst ht; exact absurd (hs _ 13 rfl (by simp [tokLevel])) (by omega)
    | subscript ht => subst ht; exact absurd (hs _ 13 rfl (by simp [tokLevel])) (by omega)
    | chainStop => exact ⟨rfl, rfl⟩
    | binOp hop hp ht =>
      subst ht
      exact absurd (hs _ _ rfl (BinOp.tokLevel _)) (by omega)
  | pow _ _ ih1 ih2 =>
    intro o' r' h'
    cases h' with
    | pow h1 h2 =>
      obtain ⟨h, h'⟩ := ih1 h1
      cases h; cases h'
      obtain ⟨h, h'⟩ := ih2 h2
      cases h; cases h'
      exact ⟨rfl, rfl⟩
    | powStop h1 hn =>
      obtain ⟨h, h'⟩ := ih1 h1
      subst h'
      exact absurd rfl hn
    | bin h1 h2 => omega
    | bool hp => exact absurd (boolPrec_cases hp) (by decide)
  | powStop _ hn ih =>
    intro o' r' h'
    cases h' with
    | pow h1 h2 =>
      obtain ⟨h, h'⟩ := ih h1
      subst h'
      exact absurd rfl hn
    | powStop h1 _ => exact ih h1
    | bin h1 h2 => omega
    | bool hp => exact absurd (boolPrec_cases hp) (by decide)
  | unary hop ht _ ih =>
    intro o' r' h'
    subst ht
    cases h' with
    | unary hop' ht' h =>
      simp only [List.cons.injEq] at ht'
      obtain rfl := UnOp.tok_inj ht'.1
      obtain rfl := ht'.2
      obtain ⟨h, h'⟩ := ih h
      cases h
      exact ⟨rfl, h'⟩
    | unaryStop hn _ => exact absurd rfl (hn _ hop)
    | bin h1 h2 => omega
    | bool hp => exact absurd (boolPrec_cases hp) (by decide)
  | unaryStop hn _ ih =>
    intro o' r' h'
    cases h' with
    | unary hop' ht' h => subst ht'; exact absurd rfl (hn _ hop')
    | unaryStop _ h => exact ih h
    | bin h1 h2 => omega
    | bool hp => exact absurd (boolPrec_cases hp) (by decide)
  | bin h5 h10 _ _ ih1 ih2 =>
    intro o' r' h'
    cases h' with
    | bin _ _ h1 h2 =>
      obtain ⟨h, h'⟩ := ih1 h1
      cases h; cases h'
      exact ih2 h2
    | bool hp => have := boolPrec_cases hp; omega
    | _ => omega
  | binOp hop hp ht _ _ ih1 ih2 =>
    intro o' r' h'
    cases h' with
    | binOp hop' hp' ht' h1 h2 =>
      rw [ht] at ht'
      simp only [List.cons.injEq] at ht'
      obtain rfl := BinOp.tok_inj ht'.1
      obtain rfl := ht'.2
      obtain ⟨h, h'⟩ := ih1 h1
      cases h; cases h'
      exact ih2 h2
    | chainStop hs =>
      subst ht
      exact absurd (hs _ _ rfl (BinOp.tokLevel _)) (by omega)
    | call ht' => rw [ht] at ht'; simp only [List.cons.injEq] at ht'; exact absurd ht'.1 (BinOp.tok_ne _).1
    | attr ht' => rw [ht] at ht'; simp only [List.cons.injEq] at ht'; exact absurd ht'.1 (BinOp.tok_ne _).2.2
    | subscript ht' => rw [ht] at ht'; simp only [List.cons.injEq] at ht'; exact absurd ht'.1 (BinOp.tok_ne _).2.1
  | compare _ _ ih1 ih2 =>
    intro o' r' h'
    cases h' with
    | compare h1 h2 =>
      obtain ⟨h, h'⟩ := ih1 h1
      cases h; cases h'
      obtain ⟨h, h'⟩ := ih2 h2
      cases h; cases h'
      exact ⟨rfl, rfl⟩
    | bin h1 h2 => omega
    | bool hp => exact absurd (boolPrec_cases hp) (by decide)
  | opsStop hs =>
    intro o' r' h'
    cases h' with
    | opsStop => exact ⟨rfl, rfl⟩
    | op _ ht =>
      exact absurd hs (CmpOp.not_stop ht)
  | op hn ht _ _ ih1 ih2 =>
    intro o' r' h'
    cases h' with
    | opsStop hs =>
      exact absurd hs (CmpOp.not_stop ht)
    | op hn' ht' h1 h2 =>
      rw [ht] at ht'
      obtain ⟨rfl, rfl⟩ := CmpOp.toks_inj ht' hn hn'
      obtain ⟨h, h'⟩ := ih1 h1
      cases h; cases h'
      obtain ⟨h, h'⟩ := ih2 h2
      cases h; cases h'
      exact ⟨rfl, rfl⟩
  | not _ ih =>
    intro o' r' h'
    cases h' with
    | not h =>
      obtain ⟨h, h'⟩ := ih h
      cases h
      exact ⟨rfl, h'⟩
    | notStop hn => exact absurd rfl hn
    | bin h1 h2 => omega
    | bool hp => exact absurd (boolPrec_cases hp) (by decide)
  | notStop hn _ ih =>
    intro o' r' h'
    cases h' with
    | not h => exact absurd rfl hn
    | notStop _ h => exact ih h
    | bin h1 h2 => omega
    | bool hp => exact absurd (boolPrec_cases hp) (by decide)
  | bool hp _ _ ih1 ih2 =>
    intro o' r' h'
    have hp12 := boolPrec_cases hp
    cases h' with
    | bool hp' h1 h2 =>
      obtain rfl := boolPrec_inj (hp.symm.trans hp')
      obtain ⟨h, h'⟩ := ih1 h1
      cases h; cases h'
      obtain ⟨h, h'⟩ := ih2 h2
      cases h; cases h'
      exact ⟨rfl, rfl⟩
    | _ => omega
  | tailStop hn =>
    intro o' r' h'
    cases h' with
    | tailStop => exact ⟨rfl, rfl⟩
    | tailCons ht => subst ht; exact absurd rfl hn
  | tailCons ht _ _ ih1 ih2 =>
    intro o' r' h'
    cases h' with
    | tailStop hn => subst ht; exact absurd rfl hn
    | tailCons ht' h1 h2 =>
      rw [ht] at ht'
      simp only [List.cons.injEq, true_and] at ht'
      subst ht'
      obtain ⟨h, h'⟩ := ih1 h1
      cases h; cases h'
      obtain ⟨h, h'⟩ := ih2 h2
      cases h; cases h'
      exact ⟨rfl, rfl⟩
  | ifExp _ _ _ ih1 ih2 ih3 =>
    intro o' r' h'
    cases h' with
    | ifExp h1 h2 h3 =>
      obtain ⟨h, h'⟩ := ih1 h1
      cases h; cases h'
      obtain ⟨h, h'⟩ := ih2 h2
      cases h; cases h'
      obtain ⟨h, h'⟩ := ih3 h3
      cases h; cases h'
      exact ⟨rfl, rfl⟩
    | ifStop h1 hn =>
      obtain ⟨h, h'⟩ := ih1 h1
      subst h'
      exact absurd rfl hn
    | bin h1 h2 => omega
    | bool hp => exact absurd (boolPrec_cases hp) (by decide)
  | ifStop _ hn ih =>
    intro o' r' h'
    cases h' with
    | ifExp h1 h2 h3 =>
      obtain ⟨h, h'⟩ := ih h1
      subst h'
      exact absurd rfl hn
    | ifStop h1 _ => exact ih h1
    | bin h1 h2 => omega
    | bool hp => exact absurd (boolPrec_cases hp) (by decide)
  | argsNil =>
    intro o' r' h'
    cases h' with
    | argsNil => exact ⟨rfl, rfl⟩
    | argsOne hn => exact absurd rfl hn
    | argsCons hn => exact absurd rfl hn
  | argsOne hn _ ih =>
    intro o' r' h'
    cases h' with
    | argsNil => exact absurd rfl hn
    | argsOne _ h =>
      obtain ⟨h, h'⟩ := ih h
      cases h; cases h'
      exact ⟨rfl, rfl⟩
    | argsCons _ h =>
      obtain ⟨h, h'⟩ := ih h
      simp at h'
  | argsCons hn _ _ ih1 ih2 =>
    intro o' r' h'
    cases h' with
    | argsNil => exact absurd rfl hn
    | argsOne _ h =>
      obtain ⟨h, h'⟩ := ih1 h
      simp at h'
    | argsCons _ h1 h2 =>
      obtain ⟨h, h'⟩ := ih1 h1
      cases h; cases h'
      obtain ⟨h, h'⟩ := ih2 h2
      cases h; cases h'
      exact ⟨rfl, rfl⟩

/-! ### Whatever is read can be read from the left -/

/-- A text of a level can start like this. -/
def Start (p : Nat) (t : List Tok) : Prop :=
  ∃ tok ts, t = tok :: ts ∧ tok ≠ .sym ")" ∧ (4 ≤ p → tok ≠ .sym "not") ∧ (12 ≤ p → ∀ op : UnOp, op ≠ .not → tok ≠ op.tok)

theorem Start.append {p : Nat} {t : List Tok} (h : Start p t) (u : List Tok) : Start p (t ++ u) := by
  obtain ⟨tok, ts, rfl, h⟩ := h
  exact ⟨tok, ts ++ u, rfl, h⟩

theorem Start.mono {p q : Nat} {t : List Tok} (h : Start q t) (hpq : p ≤ q) : Start p t := by
  obtain ⟨tok, ts, rfl, h1, h2, h3⟩ := h
  exact ⟨tok, ts, rfl, h1, fun hp => h2 (by omega), fun hp => h3 (by omega)⟩

theorem UnOp.tok_facts (op : UnOp) : op.tok ≠ .sym ")" ∧ (op ≠ .not → op.tok ≠ .sym "not") := by
  cases op <;> simp [UnOp.tok]

mutual
theorem Reads.start : ∀ {p t e}, Reads p t e → Start p t
  | _, _, _, .lit v => ⟨_, _, rfl, by simp, by simp, fun _ op _ => by cases op <;> simp [UnOp.tok]⟩
  | _, _, _, .name x => ⟨_, _, rfl, by simp, by simp, fun _ op _ => by cases op <;> simp [UnOp.tok]⟩
  | _, _, _, .bracketed t es => ⟨_, _, rfl, by simp, by simp, fun _ op _ => by cases op <;> simp [UnOp.tok]⟩
  | _, _, _, .paren h => ⟨_, _, rfl, by simp, by simp, fun _ op _ => by cases op <;> simp [UnOp.tok]⟩
  | _, _, _, .call h _ => h.start.append _
  | _, _, _, .attr a h => h.start.append _
  | _, _, _, .subscript h _ => h.start.append _
  | _, _, _, .pow h _ => (h.start.append _).mono (by decide)
  | _, _, _, .unary (op := op) hop h => ⟨_, _, rfl, op.tok_facts.1, fun _ => op.tok_facts.2 hop, fun h => by omega⟩
  | _, _, _, .bin _ h _ => h.start.append _
  | _, _, _, .compare h _ => (h.start.append _).mono (by decide)
  | _, _, _, .not h => ⟨_, _, rfl, by simp [UnOp.tok], fun h => by omega, fun h => by omega⟩
  | _, _, _, .boolOp (isOr := b) h => h.start.mono (by cases b <;> decide)
  | _, _, _, .ifExp h _ _ => (h.start.append _).mono (by decide)
  | _, _, _, .weaken h => h.start.mono (Nat.le_succ _)

theorem ReadsBool.start : ∀ {b t es}, ReadsBool b t es → Start (boolPrec b + 1) t
  | _, _, _, .one h => h.start
  | _, _, _, .cons h _ => h.start.append _
end

theorem Reads.level_le : ∀ {p t e}, Reads p t e → p ≤ 13
  | _, _, _, .lit v => by decide
  | _, _, _, .name x => by decide
  | _, _, _, .bracketed t es => by decide
  | _, _, _, .paren h => by decide
  | _, _, _, .call h _ => by decide
  | _, _, _, .attr a h => by decide
  | _, _, _, .subscript h _ => by decide
  | _, _, _, .pow h _ => by decide
  | _, _, _, .unary _ h => by decide
  | _, _, _, .bin (op := op) _ h _ => Nat.le_succ_of_le op.prec_le
  | _, _, _, .compare h _ => by decide
  | _, _, _, .not h => by decide
  | _, _, _, .boolOp (isOr := b) h => by cases b <;> decide
  | _, _, _, .ifExp h _ _ => by decide
  | _, _, _, .weaken h => by have := h.level_le; omega

theorem Stop.mono {p q : Nat} {ts : List Tok} (h : Stop p ts) (hpq : p ≤ q) : Stop q ts :=
  fun tok l h1 h2 => Nat.lt_of_lt_of_le (h tok l h1 h2) hpq

theorem stop_nil (p : Nat) : Stop p [] := fun _ _ h => by simp at h

theorem stop_cons {p q : Nat} {tok : Tok} {ts : List Tok} (h : tokLevel tok = some q) (hq : q < p) : Stop p (tok :: ts) := by
  intro tok' l h1 h2
  simp only [List.head?_cons, Option.some.injEq] at h1
  subst h1
  rw [h] at h2
  simp only [Option.some.injEq] at h2
  omega

theorem stop_cons_none {p : Nat} {tok : Tok} {ts : List Tok} (h : tokLevel tok = none) : Stop p (tok :: ts) := by
  intro tok' l h1 h2
  simp only [List.head?_cons, Option.some.injEq] at h1
  subst h1
  simp [h] at h2

theorem Stop.head_ne {p q : Nat} {ts : List Tok} {tok : Tok} (h : Stop p ts) (ht : tokLevel tok = some q) (hq : p ≤ q) :
    ts.head? ≠ some tok := by
  intro hx
  have := h tok q hx ht
  omega

theorem ite_some {c : Prop} [Decidable c] {a q : Nat} {x : Option Nat} (h : (if c then some a else x) = some q) :
    q = a ∨ x = some q := by
  by_cases hc : c
  · rw [if_pos hc] at h
    exact .inl (Option.some.inj h).symm
  · rw [if_neg hc] at h
    exact .inr h

theorem tokLevel_values {tok : Tok} {q : Nat} (h : tokLevel tok = some q) : q ≠ 11 ∧ q ≠ 3 := by
  cases tok with
  | sym s =>
    unfold tokLevel at h
    iterate 12 (rcases ite_some h with rfl | h; · exact ⟨by decide, by decide⟩)
    cases h
  | _ => cases h

theorem Start.head_ne_close {p : Nat} {t : List Tok} (h : Start p t) (u : List Tok) : (t ++ u).head? ≠ some (.sym ")") := by
  obtain ⟨tok, ts, rfl, h1, _⟩ := h
  simpa using h1

theorem Start.head_ne_not {p : Nat} {t : List Tok} (h : Start p t) (hp : 4 ≤ p) (u : List Tok) :
    (t ++ u).head? ≠ some (.sym "not") := by
  obtain ⟨tok, ts, rfl, _, h2, _⟩ := h
  simpa using h2 hp

/-- A text of level `p`, followed by what continues it on that level. -/
def Goes (p : Nat) (t : List Tok) (e : Expr) : Prop :=
  ((5 ≤ p ∧ p ≤ 10) ∨ p = 13 → ∀ rest o r, Stop (p + 1) rest → Parse (.chain p e) rest o r →
    Parse (.level p) (t ++ rest) o r) ∧
  (∀ rest, Stop p rest → Parse (.level p) (t ++ rest) (.e e) rest)

theorem goes_chain {p : Nat} {t : List Tok} {e : Expr}
    (h : ∀ rest o r, Stop (p + 1) rest → Parse (.chain p e) rest o r → Parse (.level p) (t ++ rest) o r) : Goes p t e :=
  ⟨fun _ => h, fun rest hs => h rest _ _ (hs.mono (Nat.le_succ _)) (.chainStop hs)⟩

theorem goes_stop {p : Nat} {t : List Tok} {e : Expr} (hp : ¬ ((5 ≤ p ∧ p ≤ 10) ∨ p = 13))
    (h : ∀ rest, Stop p rest → Parse (.level p) (t ++ rest) (.e e) rest) : Goes p t e :=
  ⟨fun hc => absurd hc hp, h⟩

theorem Goes.weaken {p : Nat} {t : List Tok} {e : Expr} (h : Goes (p + 1) t e) (hp : p + 1 ≤ 13) (hs : Start (p + 1) t) :
    Goes p t e := by
  have hs' := hs
  obtain ⟨tok, ts, htok, h1, h2, h3⟩ := hs'
  have hhead : ∀ rest : List Tok, (t ++ rest).head? = some tok := by intro rest; rw [htok]; rfl
  by_cases hc : 5 ≤ p ∧ p ≤ 10
  · exact goes_chain fun rest o r hst hch => .bin hc.1 hc.2 (h.2 rest hst) hch
  · have hp' : p = 0 ∨ p = 1 ∨ p = 2 ∨ p = 3 ∨ p = 4 ∨ p = 11 ∨ p = 12 := by omega
    refine goes_stop (by omega) fun rest hst => ?_
    have hl := h.2 rest (hst.mono (Nat.le_succ _))
    rcases hp' with rfl | rfl | rfl | rfl | rfl | rfl | rfl
    · exact .ifStop hl (hst.head_ne (q := 0) (by simp [tokLevel]) (by omega))
    · have := Parse.bool (isOr := true) (p := 1) rfl hl (.tailStop (hst.head_ne (q := 1) (by simp [boolTok, tokLevel]) (by omega)))
      exact this
    · have := Parse.bool (isOr := false) (p := 2) rfl hl (.tailStop (hst.head_ne (q := 2) (by simp [boolTok, tokLevel]) (by omega)))
      exact this
    · refine .notStop ?_ hl
      rw [hhead]
      simpa using h2 (by omega)
    · have := Parse.compare hl (.opsStop hst)
      exact this
    · refine .unaryStop ?_ hl
      intro op hop
      rw [hhead]
      simpa using h3 (by omega) op hop
    · exact .powStop hl (hst.head_ne (q := 12) (by simp [tokLevel]) (by omega))

mutual
/-- Whatever reads as an expression is read as it from the left. -/
theorem Reads.goes : ∀ {p t e}, Reads p t e → Goes p t e
  | _, _, _, .lit v => goes_chain fun rest o r _ h => .lit h
  | _, _, _, .name x => goes_chain fun rest o r _ h => .name h
  | _, _, _, .bracketed t es => goes_chain fun rest o r _ h => .bracketed h
  | _, _, _, .paren h => goes_chain fun rest o r _ hc => by
    have := h.goes.2 (.sym ")" :: rest) (stop_cons_none (by simp [tokLevel]))
    simpa using Parse.paren this hc
  | _, _, _, .call h h' => goes_chain fun rest o r hs hc => by
    have h1 := h'.goes rest
    have := h.goes.1 (.inr rfl) (.sym "(" :: (_ ++ .sym ")" :: rest)) o r (stop_cons (q := 13) (by simp [tokLevel]) (by omega))
      (.call rfl h1 hc)
    simpa using this
  | _, _, _, .attr a h => goes_chain fun rest o r hs hc => by
    have := h.goes.1 (.inr rfl) (.sym "." :: .ident a :: rest) o r (stop_cons (q := 13) (by simp [tokLevel]) (by omega))
      (.attr rfl hc)
    simpa using this
  | _, _, _, .subscript h h' => goes_chain fun rest o r hs hc => by
    have h1 := h'.goes.2 (.sym "]" :: rest) (stop_cons_none (by simp [tokLevel]))
    have := h.goes.1 (.inr rfl) (.sym "[" :: (_ ++ .sym "]" :: rest)) o r (stop_cons (q := 13) (by simp [tokLevel]) (by omega))
      (.subscript rfl h1 hc)
    simpa using this
  | _, _, _, .pow h h' => goes_stop (by decide) fun rest hs => by
    have h1 := h'.goes.2 rest (fun tok q ht hq => by
      have := hs tok q ht hq
      have := (tokLevel_values hq).1
      omega)
    have := Parse.pow (h.goes.2 (.sym "**" :: (_ ++ rest)) (stop_cons (q := 12) (by simp [tokLevel]) (by omega))) h1
    simpa [BinOp.tok] using this
  | _, _, _, .unary hop h => goes_stop (by decide) fun rest hs => .unary hop rfl (h.goes.2 rest hs)
  | _, _, _, .bin (op := op) hop h h' => goes_chain fun rest o r hs hc => by
    have hb := BinOp.prec_le10 hop
    have h1 := h'.goes.2 rest hs
    have := h.goes.1 (.inl hb) (op.tok :: (_ ++ rest)) o r (stop_cons op.tokLevel (by omega)) (.binOp hop rfl rfl h1 hc)
    simpa using this
  | _, _, _, .compare h h' => goes_stop (by decide) fun rest hs => by
    have h1 := h'.goes rest hs
    have := Parse.compare (h.goes.2 (_ ++ rest) (h'.stop rest)) h1
    rw [List.append_assoc]
    exact this
  | _, _, _, .not h => goes_stop (by decide) fun rest hs => .not (h.goes.2 rest hs)
  | _, _, _, .boolOp (isOr := b) h => goes_stop (by cases b <;> decide) fun rest hs => by
    obtain ⟨r1, h1, h2⟩ := h.goes rest hs _ _ rfl
    exact Parse.bool rfl h1 h2
  | _, _, _, .ifExp (u := u) (w := w) h h' h'' => goes_stop (by decide) fun rest hs => by
    have h3 := h''.goes.2 rest hs
    have h2 := h'.goes.2 (.sym "else" :: (w ++ rest)) (stop_cons_none (by simp [tokLevel]))
    have h1 := h.goes.2 (.sym "if" :: (u ++ .sym "else" :: (w ++ rest))) (stop_cons (q := 0) (by simp [tokLevel]) (by omega))
    simpa using Parse.ifExp h1 h2 h3
  | _, _, _, .weaken h => h.goes.weaken h.level_le h.start

theorem ReadsArgs.goes : ∀ {t es}, ReadsArgs t es → ∀ rest, Parse .args (t ++ .sym ")" :: rest) (.es es) (.sym ")" :: rest)
  | _, _, .nil, rest => .argsNil
  | _, _, .one h, rest => by
    exact .argsOne (h.start.head_ne_close _) (h.goes.2 _ (stop_cons_none (by simp [tokLevel])))
  | _, _, .cons h h', rest => by
    have h2 := h'.goes rest
    have := Parse.argsCons (h.start.head_ne_close _) (h.goes.2 (.sym "," :: _) (stop_cons_none (by simp [tokLevel]))) h2
    simpa using this

theorem ReadsBool.goes : ∀ {b t es}, ReadsBool b t es → ∀ rest, Stop (boolPrec b) rest → ∀ v vs, es = v :: vs →
    ∃ r1, Parse (.level (boolPrec b + 1)) (t ++ rest) (.e v) r1 ∧ Parse (.tail b) r1 (.es vs) rest
  | b, _, _, .one h, rest, hs => by
    intro v vs hv
    cases hv
    exact ⟨rest, h.goes.2 rest (hs.mono (Nat.le_succ _)),
      .tailStop (hs.head_ne (q := boolPrec b) (by cases b <;> simp [boolTok, tokLevel, boolPrec]) (Nat.le_refl _))⟩
  | b, _, _, .cons (u := u) h h', rest, hs => by
    intro v vs hv
    cases hv
    obtain ⟨r1, h1, h2⟩ := h'.goes rest hs _ _ rfl
    refine ⟨boolTok b :: (u ++ rest), ?_, .tailCons rfl h1 h2⟩
    have := h.goes.2 (boolTok b :: (u ++ rest))
      (stop_cons (q := boolPrec b) (by cases b <;> simp [boolTok, tokLevel, boolPrec]) (Nat.lt_succ_self _))
    simpa using this

theorem ReadsOps.goes : ∀ {t es}, ReadsOps t es → ∀ rest, Stop 4 rest → Parse .ops (t ++ rest) (.ops es) rest
  | _, _, .one (op := op) h, rest, hs => by
    have := Parse.op (op := op) (fun _ => h.start.head_ne_not (by decide) _) rfl (h.goes.2 rest (hs.mono (by decide))) (.opsStop hs)
    simpa using this
  | _, _, .cons (op := op) h h', rest, hs => by
    have h3 := h'.goes rest hs
    have := Parse.op (op := op) (fun _ => h.start.head_ne_not (by decide) _) rfl (h.goes.2 (_ ++ rest) (h'.stop rest)) h3
    simpa using this

theorem ReadsOps.stop : ∀ {t es}, ReadsOps t es → ∀ rest, Stop 5 (t ++ rest)
  | _, _, .one (op := op) h, rest => by
    obtain ⟨s, l, hl, hlev⟩ := op.toks_head
    rw [hl]
    exact stop_cons hlev (by omega)
  | _, _, .cons (op := op) h h', rest => by
    obtain ⟨s, l, hl, hlev⟩ := op.toks_head
    rw [hl]
    exact stop_cons hlev (by omega)
end

/-- A text reads as at most one expression. -/
theorem Reads.unique {p : Nat} {t : List Tok} {e e' : Expr} (h : Reads p t e) (h' : Reads p t e') : e = e' := by
  have h1 := h.goes.2 [] (stop_nil p)
  have h2 := h'.goes.2 [] (stop_nil p)
  have := (h1.det h2).1
  cases this
  rfl

/-- The text reads as the expression, on the level or tighter, and as no other one on any level. -/
def ReadsAs (p : Nat) (t : List Tok) (e : Expr) : Prop := Reads p t e ∧ ∀ e', Reads 0 t e' → e' = e

theorem Reads.as {p : Nat} {t : List Tok} {e : Expr} (h : Reads p t e) : ReadsAs p t e :=
  ⟨h, fun _ h' => h'.unique (h.mono (Nat.zero_le _))⟩

/-- `a or b if c else d` is a conditional expression. -/
example : ReadsAs 0 [.ident ['a'], .sym "or", .ident ['b'], .sym "if", .ident ['c'], .sym "else", .ident ['d']]
    (.ifExp (.name ['c']) (.boolOp true [.name ['a'], .name ['b']]) (.name ['d'])) :=
  (reads_text_at (p := 0) (e := .ifExp (.name ['c']) (.boolOp true [.name ['a'], .name ['b']]) (.name ['d']))
    (by simp [Expr.Ok, OkAll]) (by decide)).as

end Verif.Py
