import Verif.Props.Z3Block

/-!
**C76**: translating conditions and blocks raises no exception.
-/

namespace Verif.Py.Blocks

mutual
/-- The expressions that are translated. -/
def Stmt.exprs : Stmt → List Expr
  | .assign _ e => parts e
  | .assigns _ e => (children e).flatMap parts
  | .aug _ _ e => parts e
  | .assert_ e => parts e
  | .if_ t b r => t :: (b.exprs ++ r.exprs)
  | _ => []

def Block.exprs : Block → List Expr
  | .nil => []
  | .cons s b => s.exprs ++ b.exprs

def Rest.exprs : Rest → List Expr
  | .none => []
  | .elif_ t b r => t :: (b.exprs ++ r.exprs)
  | .else_ b => b.exprs
end

mutual
/-- What is assigned to several variables is a tuple or a list in the text, or otherwise has as many children as there are
variables. -/
def Stmt.Unpacks : Stmt → Prop
  | .assigns ts e => ts.length ≤ (children e).length
  | .if_ _ b r => b.Unpacks ∧ r.Unpacks
  | _ => True

def Block.Unpacks : Block → Prop
  | .nil => True
  | .cons s b => s.Unpacks ∧ b.Unpacks

def Rest.Unpacks : Rest → Prop
  | .none => True
  | .elif_ _ b r => b.Unpacks ∧ r.Unpacks
  | .else_ b => b.Unpacks
end

section
variable {R : FoldSem Val} {isFloat : Val → Bool} {guess : Expr → Option Types}
variable {pure modified mutableExpr : Expr → Bool} {mutableStmt : Stmt → Bool}

variable (R isFloat) in
def Converts (ws : Vars) (e : Expr) : Prop := ∀ pb, ∃ o, convert (intSem R) isFloat ws e pb = .ok o

variable (R isFloat) in
mutual
def Stmt.Converted (ws : Vars) : Stmt → Prop
  | .assign _ e => ∀ d ∈ parts e, Converts R isFloat ws d
  | .assigns _ e => ∀ a ∈ children e, ∀ d ∈ parts a, Converts R isFloat ws d
  | .aug (.name x) op e => ws.lookup (.name x) ≠ none → Converts R isFloat ws (.bin op (.name x) e)
  | .assert_ e => Converts R isFloat ws e
  | .if_ t b r => Converts R isFloat ws t ∧ b.Converted ws ∧ r.Converted ws
  | _ => True

def Block.Converted (ws : Vars) : Block → Prop
  | .nil => True
  | .cons s b => s.Converted ws ∧ b.Converted ws

def Rest.Converted (ws : Vars) : Rest → Prop
  | .none => True
  | .elif_ t b r => Converts R isFloat ws t ∧ b.Converted ws ∧ r.Converted ws
  | .else_ b => b.Converted ws
end

variable (R isFloat) in
/-- What follows from nodes having been admitted. -/
def Admits (vs vs' : Vars) (es : List Expr) (P : Vars → Prop) : Prop :=
  vs.Sub vs' ∧ ∀ ws, vs'.Sub ws → (∀ e ∈ es, AbsTranslated R isFloat ws e) → P ws

theorem Admits.trans {vs vs1 vs2 : Vars} {es fs gs : List Expr} {P Q S : Vars → Prop} (h : Admits R isFloat vs vs1 es P)
    (h' : Admits R isFloat vs1 vs2 fs Q) (he : ∀ e, e ∈ es ∨ e ∈ fs → e ∈ gs) (hS : ∀ ws, P ws → Q ws → S ws) :
    Admits R isFloat vs vs2 gs S :=
  ⟨h.1.trans h'.1, fun ws hw ha => hS ws (h.2 ws (h'.1.trans hw) fun e hm => ha e (he e (.inl hm)))
    (h'.2 ws hw fun e hm => ha e (he e (.inr hm)))⟩

theorem Admits.imp {vs vs1 : Vars} {es : List Expr} {P Q : Vars → Prop} (h : Admits R isFloat vs vs1 es P)
    (hQ : ∀ ws, P ws → Q ws) : Admits R isFloat vs vs1 es Q :=
  ⟨h.1, fun ws hw ha => hQ ws (h.2 ws hw ha)⟩

theorem Admits.refl (vs : Vars) {es : List Expr} {P : Vars → Prop} (h : ∀ ws, P ws) : Admits R isFloat vs vs es P :=
  ⟨fun _ h => h, fun ws _ _ => h ws⟩

variable (hR : OnlyNumbers R isFloat)

include hR in
theorem initExprs_admits : ∀ (es : List Expr) (vs vs' : Vars),
    initExprs (intSem R) isFloat guess modified es vs = .ok (true, vs') →
    Admits R isFloat vs vs' es fun ws => ∀ e ∈ es, Converts R isFloat ws e
  | [], vs, vs', h => by
    simp only [initExprs, Except.ok.injEq, Prod.mk.injEq, true_and] at h
    subst h
    exact .refl _ fun ws e he => nomatch he
  | e :: es, vs, vs', h => by
    simp only [initExprs] at h
    by_cases ha : allowedExpr e = true
    · rw [if_pos ha] at h
      obtain ⟨vs1, h1, h2⟩ := andThen_ok h
      have hp : Admits R isFloat vs vs1 [e] fun ws => Converts R isFloat ws e :=
        ⟨initVars_sub e _ _ vs vs1 true h1, fun ws hw ht => convert_ok hR e _ _ vs vs1 ws h1 hw (ht e (by simp))⟩
      refine hp.trans (initExprs_admits es vs1 vs' h2) (fun d hd => ?_) fun ws hp1 hp2 d hd => ?_
      · simpa using hd
      · rcases List.mem_cons.mp hd with rfl | hd
        · exact hp1
        · exact hp2 d hd
    · rw [if_neg ha] at h
      cases h

include hR in
theorem validExpr_admits {e : Expr} {vs vs' : Vars} (h : validExpr (intSem R) isFloat guess pure modified e vs = .ok (true, vs')) :
    Admits R isFloat vs vs' [e] fun ws => Converts R isFloat ws e := by
  unfold validExpr at h
  by_cases hc : (allowedExpr e && pure e) = true
  · rw [if_pos hc] at h
    exact (initExprs_admits hR [e] vs vs' h).imp fun ws ha => ha e (by simp)
  · rw [if_neg hc] at h; cases h

theorem converts_parts {ws : Vars} {e : Expr} (h : ∀ d ∈ parts e, Converts R isFloat ws d) : Converts R isFloat ws e := by
  by_cases hi : ∃ t a b, e = .ifExp t a b
  · obtain ⟨t, a, b, rfl⟩ := hi
    exact fun pb => ⟨none, by simp only [convert]⟩
  · refine h e ?_
    cases e with
    | ifExp t a b => exact absurd ⟨t, a, b, rfl⟩ hi
    | _ => simp [parts]

/-- A name is not a number. -/
theorem isFloatNode_ok {op : BinOp} (hop : op = .mod ∨ op = .floordiv) {x : Str} {r : Expr}
    (hnl : nonlinear (intSem R) isFloat (.bin op (.name x) r) = .ok false) :
    ∃ w : Int, constValue (intSem R) r = .ok (some (.int w)) := by
  simp only [nonlinear] at hnl
  cases hn : isNumberNode (intSem R) isFloat (.bin op (.name x) r) with
  | error x => rw [hn] at hnl; cases hnl
  | ok n =>
    cases n with
    | true =>
      obtain ⟨u, hu, _⟩ := constIs_true hn
      rw [constValue_foldRec] at hu
      simp only [foldRec] at hu
      cases hr : foldRec (intSem R) r with
      | error y => rw [hr] at hu; cases hu
      | ok w =>
        have hd : op = .div ∨ op = .floordiv ∨ op = .mod := by rcases hop with h | h <;> simp [h]
        simp only [hr, if_pos hd] at hu
        cases hz : (intSem R).isZero w with
        | error y => simp only [hz] at hu; cases hu
        | ok z => cases z <;> simp only [hz] at hu <;> cases hu
    | false =>
      rw [hn] at hnl
      have : notE (isIntegerNode (intSem R) r) = .ok false := by
        rcases hop with rfl | rfl <;> exact hnl
      unfold notE at this
      cases hi : isIntegerNode (intSem R) r with
      | error x => rw [hi] at this; cases this
      | ok b =>
        rw [hi] at this
        cases b with
        | false => cases this
        | true =>
          obtain ⟨w, hw, hp⟩ := constIs_true hi
          cases w with
          | int i => exact ⟨i, hw⟩
          | _ => simp [isPlainInt] at hp

theorem converts_aug {ws : Vars} {x : Str} {op : BinOp} {e : Expr}
    (hnl : nonlinear (intSem R) isFloat (.bin op (.name x) e) = .ok false) (hx : ws.lookup (.name x) ≠ none)
    (he : Converts R isFloat ws e) : Converts R isFloat ws (.bin op (.name x) e) := by
  intro pb
  obtain ⟨i, hi⟩ := Option.ne_none_iff_exists'.1 hx
  obtain ⟨o, ho⟩ := he false
  have hmf : (op = .mod ∨ op = .floordiv) → ∀ t, ∃ o, divTerm (intSem R) op t e = .ok o := by
    intro hop t
    obtain ⟨w, hw⟩ := isFloatNode_ok hop hnl
    unfold divTerm
    rw [hw]
    simp only [Val.asInt]
    rcases hop with rfl | rfl <;> exact ⟨_, rfl⟩
  simp only [convert, hnl, varTerm, hi, ho]
  cases op with
  | mod =>
    simp only
    split
    · exact condTerm_ok (hmf (by simp) _)
    · exact ⟨_, rfl⟩
  | floordiv =>
    simp only
    split
    · exact condTerm_ok (hmf (by simp) _)
    · exact ⟨_, rfl⟩
  | div => exact condTerm_ok (realDivTerm_ok hnl _)
  | _ =>
    first
    | exact ⟨_, rfl⟩
    | (cases o <;> exact ⟨_, rfl⟩)

include hR in
theorem validSimple_admits {s : Stmt} {vs vs' : Vars}
    (h : validSimple (intSem R) isFloat guess pure modified s vs = .ok (true, vs')) :
    Admits R isFloat vs vs' s.exprs fun ws => s.Converted R isFloat ws := by
  cases s with
  | assign t e =>
    simp only [validSimple] at h
    by_cases hc : pureValue pure e = true
    · rw [if_pos hc] at h
      refine (initExprs_admits hR _ vs vs' h).imp fun ws ha => ?_
      simpa only [Stmt.Converted] using ha
    · rw [if_neg hc] at h; cases h
  | assigns ts e =>
    simp only [validSimple] at h
    by_cases hc : pureValue pure e = true
    · rw [if_pos hc] at h
      refine (initExprs_admits hR _ vs vs' h).imp fun ws ha => ?_
      simp only [Stmt.Converted]
      exact fun a hae d hd => ha d (List.mem_flatMap.mpr ⟨a, hae, hd⟩)
    · rw [if_neg hc] at h; cases h
  | aug t op e =>
    simp only [validSimple] at h
    by_cases hc : pureValue pure e = true
    · rw [if_pos hc] at h
      cases t with
      | other n => cases h
      | name x =>
        simp only at h
        cases hn : nonlinear (intSem R) isFloat (.bin op (.name x) e) with
        | error y => rw [hn] at h; cases h
        | ok nl =>
          rw [hn] at h
          cases nl with
          | true => cases h
          | false =>
            simp only at h
            refine (initExprs_admits hR _ vs vs' h).imp fun ws ha => ?_
            simp only [Stmt.Converted]
            exact fun hx => converts_aug hn hx (converts_parts ha)
    · rw [if_neg hc] at h; cases h
  | expr e =>
    simp only [validSimple, Except.ok.injEq, Prod.mk.injEq] at h
    obtain ⟨_, rfl⟩ := h
    exact .refl _ fun ws => by simp only [Stmt.Converted]
  | pass =>
    simp only [validSimple, Except.ok.injEq, Prod.mk.injEq] at h
    obtain ⟨_, rfl⟩ := h
    exact .refl _ fun ws => by simp only [Stmt.Converted]
  | assert_ e =>
    simp only [validSimple] at h
    by_cases hc : pure e = true
    · rw [if_pos hc] at h
      refine (initExprs_admits hR _ vs vs' h).imp fun ws ha => ?_
      simp only [Stmt.Converted]
      exact converts_parts ha
    · rw [if_neg hc] at h; cases h
  | end_ =>
    simp only [validSimple, Except.ok.injEq, Prod.mk.injEq] at h
    obtain ⟨_, rfl⟩ := h
    exact .refl _ fun ws => by simp only [Stmt.Converted]
  | if_ t b r => simp only [validSimple, Except.ok.injEq, Prod.mk.injEq] at h; cases h.1
  | other n => simp only [validSimple, Except.ok.injEq, Prod.mk.injEq] at h; cases h.1

theorem Admits.join {vs v1 v2 vs' : Vars} {t : Expr} {b r : List Expr} {P Q S : Vars → Prop}
    (h1 : Admits R isFloat vs v1 r P) (h2 : Admits R isFloat v1 v2 b Q) (h3 : Admits R isFloat v2 vs' [t] S) :
    Admits R isFloat vs vs' (t :: (b ++ r)) fun ws => S ws ∧ Q ws ∧ P ws :=
  h1.trans (h2.trans h3 (gs := t :: b) (S := fun ws => S ws ∧ Q ws)
    (fun e he => by rcases he with h | h <;> simp_all) fun _ hq hs => ⟨hs, hq⟩)
    (fun e he => by rcases he with h | h <;> simp_all; rcases h with h | h <;> simp [h]) fun _ hp hqs => ⟨hqs.1, hqs.2, hp⟩

set_option linter.unusedSectionVars false in
include hR in
mutual
theorem validStmt_admits : ∀ (s : Stmt) (direct : Bool) (vs vs' : Vars),
    validStmt (intSem R) isFloat guess pure modified direct s vs = .ok (true, vs') →
    Admits R isFloat vs vs' s.exprs fun ws => s.Converted R isFloat ws
  | .if_ t b r, direct, vs, vs', h => by
    simp only [validStmt] at h
    obtain ⟨v1, h1, h⟩ := andThen_ok h
    obtain ⟨v2, h2, h3⟩ := andThen_ok h
    simp only [Stmt.exprs, Stmt.Converted]
    exact (validRest_admits r _ vs v1 h1).join (validBlock_admits b _ v1 v2 h2) (validExpr_admits hR h3)
  | .end_, direct, vs, vs', h => by
    simp only [validStmt, Except.ok.injEq, Prod.mk.injEq] at h
    obtain ⟨_, rfl⟩ := h
    exact .refl _ fun ws => by simp only [Stmt.Converted]
  | .assign t e, direct, vs, vs', h => by simp only [validStmt] at h; exact validSimple_admits hR h
  | .assigns t e, direct, vs, vs', h => by simp only [validStmt] at h; exact validSimple_admits hR h
  | .aug t op e, direct, vs, vs', h => by simp only [validStmt] at h; exact validSimple_admits hR h
  | .expr e, direct, vs, vs', h => by simp only [validStmt] at h; exact validSimple_admits hR h
  | .pass, direct, vs, vs', h => by simp only [validStmt] at h; exact validSimple_admits hR h
  | .assert_ e, direct, vs, vs', h => by simp only [validStmt] at h; exact validSimple_admits hR h
  | .other n, direct, vs, vs', h => by simp only [validStmt] at h; exact validSimple_admits hR h

theorem validBlock_admits : ∀ (b : Block) (direct : Bool) (vs vs' : Vars),
    validBlock (intSem R) isFloat guess pure modified direct b vs = .ok (true, vs') →
    Admits R isFloat vs vs' b.exprs fun ws => b.Converted R isFloat ws
  | .nil, direct, vs, vs', h => by
    simp only [validBlock, Except.ok.injEq, Prod.mk.injEq] at h
    obtain ⟨_, rfl⟩ := h
    exact .refl _ fun ws => by simp only [Block.Converted]
  | .cons s b, direct, vs, vs', h => by
    simp only [validBlock] at h
    obtain ⟨v1, h1, h2⟩ := andThen_ok h
    simp only [Block.exprs, Block.Converted]
    exact (validBlock_admits b _ vs v1 h1).trans (validStmt_admits s _ v1 vs' h2)
      (fun e he => List.mem_append.mpr he.symm) fun ws hb hs => ⟨hs, hb⟩

theorem validRest_admits : ∀ (r : Rest) (direct : Bool) (vs vs' : Vars),
    validRest (intSem R) isFloat guess pure modified direct r vs = .ok (true, vs') →
    Admits R isFloat vs vs' r.exprs fun ws => r.Converted R isFloat ws
  | .none, direct, vs, vs', h => by
    simp only [validRest, Except.ok.injEq, Prod.mk.injEq] at h
    obtain ⟨_, rfl⟩ := h
    exact .refl _ fun ws => by simp only [Rest.Converted]
  | .elif_ t b r, direct, vs, vs', h => by
    simp only [validRest] at h
    obtain ⟨v1, h1, h⟩ := andThen_ok h
    obtain ⟨v2, h2, h3⟩ := andThen_ok h
    simp only [Rest.exprs, Rest.Converted]
    exact (validRest_admits r _ vs v1 h1).join (validBlock_admits b _ v1 v2 h2) (validExpr_admits hR h3)
  | .else_ b, direct, vs, vs', h => by
    simp only [validRest] at h
    simp only [Rest.exprs, Rest.Converted]
    exact validBlock_admits b _ vs vs' h
end

include hR in
theorem validateStmt_admits {s : Stmt} {vs vs' : Vars}
    (h : validateStmt (intSem R) isFloat guess pure modified mutableStmt s vs = .ok (true, vs')) :
    Admits R isFloat vs vs' s.exprs fun ws => s.Converted R isFloat ws := by
  unfold validateStmt at h
  by_cases hmu : mutableStmt s = true
  · rw [if_pos hmu] at h; cases h
  · rw [if_neg hmu] at h
    cases s with
    | if_ t b r =>
      simp only at h
      obtain ⟨v1, h1, h⟩ := andThen_ok h
      obtain ⟨v2, h2, h3⟩ := andThen_ok h
      simp only [Stmt.exprs, Stmt.Converted]
      exact (validRest_admits hR r _ vs v1 h1).join (validBlock_admits hR b _ v1 v2 h2) (validExpr_admits hR h3)
    | _ => exact validStmt_admits hR _ _ vs vs' h

include hR in
theorem validateStmts_admits : ∀ (b : Block) (vs vs' : Vars),
    validateStmts (intSem R) isFloat guess pure modified mutableStmt b.toList vs = .ok (true, vs') →
    Admits R isFloat vs vs' b.exprs fun ws => b.Converted R isFloat ws
  | .nil, vs, vs', h => by
    simp only [Block.toList, validateStmts, Except.ok.injEq, Prod.mk.injEq] at h
    obtain ⟨_, rfl⟩ := h
    exact .refl _ fun ws => by simp only [Block.Converted]
  | .cons s b, vs, vs', h => by
    simp only [Block.toList, validateStmts] at h
    obtain ⟨v1, h1, h2⟩ := andThen_ok h
    simp only [Block.exprs, Block.Converted]
    exact (validateStmt_admits hR h1).trans (validateStmts_admits b v1 vs' h2) (fun e he => List.mem_append.mpr he)
      fun ws hs hb => ⟨hs, hb⟩

/-! ### Translating -/

theorem andSome_total {α β : Type} {r : Except PyErr (Option α)} {f : α → Except PyErr (Option β)} (hr : ∃ o, r = .ok o)
    (hf : ∀ a, r = .ok (some a) → ∃ o, f a = .ok o) : ∃ o, andSome r f = .ok o := by
  obtain ⟨o, rfl⟩ := hr
  cases o with
  | none => exact ⟨_, rfl⟩
  | some a => exact hf a rfl

theorem both_total {α β : Type} {r : Except PyErr (Option α)} {s : Except PyErr (Option β)} (hr : ∃ o, r = .ok o)
    (hs : ∃ o, s = .ok o) : ∃ o, both r s = .ok o := by
  obtain ⟨o, rfl⟩ := hr
  obtain ⟨p, rfl⟩ := hs
  cases o <;> cases p <;> exact ⟨_, rfl⟩

variable {ws : Vars}

theorem condition_total {ver : Ver} {e : Expr} (h : Converts R isFloat ws e) :
    ∃ o, condition (intSem R) isFloat ws ver e = .ok o := by
  obtain ⟨o, ho⟩ := h true
  unfold condition
  rw [ho]
  cases o <;> exact ⟨_, rfl⟩

theorem value_total {ver : Ver} {e : Expr} (h : Converts R isFloat ws e) : ∃ o, value (intSem R) isFloat ws ver e = .ok o := by
  obtain ⟨o, ho⟩ := h false
  unfold value
  rw [ho]
  cases o <;> exact ⟨_, rfl⟩

theorem assigned_total {ver : Ver} {e : Expr} (h : ∀ d ∈ parts e, Converts R isFloat ws d) :
    ∃ o, assigned (intSem R) isFloat ws ver e = .ok o := by
  by_cases hi : ∃ t a b, e = .ifExp t a b
  · obtain ⟨t, a, b, rfl⟩ := hi
    simp only [assigned]
    exact andSome_total (both_total (condition_total (h t (by simp [parts])))
      (both_total (value_total (h a (by simp [parts]))) (value_total (h b (by simp [parts]))))) fun _ _ => ⟨_, rfl⟩
  · have : assigned (intSem R) isFloat ws ver e = value (intSem R) isFloat ws ver e := by
      cases e with
      | ifExp t a b => exact absurd ⟨t, a, b, rfl⟩ hi
      | _ => rfl
    rw [this]
    exact value_total (converts_parts h)

theorem assignAll_total {ver : Ver} : ∀ (ts : List Target) (es : List Expr) (ver' : Ver) (ch : List Expr) (st : St),
    ts.length ≤ es.length → (∀ a ∈ es, ∀ d ∈ parts a, Converts R isFloat ws d) →
    ∃ o, assignAll (intSem R) isFloat ws ver ts es ver' ch st = .ok o
  | [], es, ver', ch, st, _, _ => ⟨_, rfl⟩
  | .other _ :: ts, es, ver', ch, st, _, _ => ⟨_, rfl⟩
  | .name x :: ts, [], ver', ch, st, hl, _ => absurd hl (by simp)
  | .name x :: ts, e :: es, ver', ch, st, hl, h => by
    simp only [assignAll, List.tail_cons]
    have hl : ts.length ≤ es.length := by simpa using hl
    have hes : ∀ a ∈ es, ∀ d ∈ parts a, Converts R isFloat ws d := fun a ha => h a (by simp [ha])
    split
    · exact assignAll_total ts es _ _ _ hl hes
    · exact andSome_total (assigned_total (h e (by simp))) fun v _ => assignAll_total ts es _ _ _ hl hes

mutual
theorem afterStmt_total : ∀ (s : Stmt) (ver : Ver) (st : St), s.Converted R isFloat ws → s.Unpacks →
    ∃ o, afterStmt (intSem R) isFloat ws s ver st = .ok o
  | .end_, ver, st, _, _ => ⟨_, rfl⟩
  | .if_ t b r, ver, st, hc, hu => by
    simp only [Stmt.Converted] at hc
    simp only [Stmt.Unpacks] at hu
    simp only [afterStmt]
    exact andSome_total (both_total (condition_total hc.1) (afterBlock_total b ver [] [] st hc.2.1 hu.1)) fun co _ =>
      andSome_total (afterRest_total r ver _ _ hc.2.2 hu.2) fun p _ => ⟨_, rfl⟩
  | .assert_ e, ver, st, hc, _ => by
    simp only [Stmt.Converted] at hc
    simp only [afterStmt]
    exact andSome_total (condition_total hc) fun c _ => ⟨_, rfl⟩
  | .assign t e, ver, st, hc, _ => by
    simp only [Stmt.Converted] at hc
    simp only [afterStmt, afterAssign]
    exact assignAll_total [t] [e] _ _ _ (by simp) fun a ha => by
      rw [List.mem_singleton.mp ha]; exact hc
  | .assigns ts e, ver, st, hc, hu => by
    simp only [Stmt.Converted] at hc
    simp only [Stmt.Unpacks] at hu
    simp only [afterStmt, afterAssign]
    exact assignAll_total ts _ _ _ _ hu hc
  | .aug (.other n) op e, ver, st, hc, _ => ⟨_, rfl⟩
  | .aug (.name x) op e, ver, st, hc, _ => by
    simp only [Stmt.Converted] at hc
    simp only [afterStmt, afterAssign, assignAll]
    split
    · exact ⟨_, rfl⟩
    · rename_i hx
      exact andSome_total (assigned_total fun d hd => by
        simp only [parts, List.mem_singleton] at hd
        rw [hd]
        exact hc hx) fun v _ => ⟨_, rfl⟩
  | .expr e, ver, st, _, _ => ⟨_, rfl⟩
  | .pass, ver, st, _, _ => ⟨_, rfl⟩
  | .other n, ver, st, _, _ => ⟨_, rfl⟩

theorem afterBlock_total : ∀ (b : Block) (ver : Ver) (ch : List Expr) (as : List Fm) (st : St), b.Converted R isFloat ws →
    b.Unpacks → ∃ o, afterBlock (intSem R) isFloat ws b ver ch as st = .ok o
  | .nil, ver, ch, as, st, _, _ => ⟨_, rfl⟩
  | .cons s b, ver, ch, as, st, hc, hu => by
    simp only [Block.Converted] at hc
    simp only [Block.Unpacks] at hu
    simp only [afterBlock]
    refine andSome_total (afterStmt_total s ver st hc.1 hu.1) fun o _ => ?_
    cases h : o.1 with
    | ends => exact ⟨_, rfl⟩
    | goes ver' ch' as' => exact afterBlock_total b ver' _ _ _ hc.2 hu.2

theorem afterRest_total : ∀ (r : Rest) (ver : Ver) (acc : Acc) (st : St), r.Converted R isFloat ws → r.Unpacks →
    ∃ o, afterRest (intSem R) isFloat ws r ver acc st = .ok o
  | .none, ver, acc, st, _, _ => ⟨_, rfl⟩
  | .elif_ t b r, ver, acc, st, hc, hu => by
    simp only [Rest.Converted] at hc
    simp only [Rest.Unpacks] at hu
    simp only [afterRest]
    exact andSome_total (both_total (condition_total hc.1) (afterBlock_total b ver [] [] st hc.2.1 hu.1)) fun co _ =>
      afterRest_total r ver _ _ hc.2.2 hu.2
  | .else_ b, ver, acc, st, hc, hu => by
    simp only [Rest.Converted] at hc
    simp only [Rest.Unpacks] at hu
    simp only [afterRest]
    exact andSome_total (afterBlock_total b ver [] [] st hc hu) fun o _ => ⟨_, rfl⟩
end

theorem conditions_total {ver : Ver} {e : Expr} (h : Converts R isFloat ws e) :
    ∃ o, conditions (intSem R) isFloat ws ver [e] = .ok o := by
  simp only [conditions]
  exact andSome_total (condition_total h) fun c _ => andSome_total ⟨_, rfl⟩ fun cs _ => ⟨_, rfl⟩

/-- **C76**, exceptions (partial). If nodes are admitted without an exception, none is raised by translating them, provided
that what is assigned to several variables has as many children, and that the argument of every `abs` is translated (as in
C62). -/
theorem C76_no_exception_partial {unsat : Fm → Bool} {shared : Bool} {c₁ c₂ : Expr} {b : Block}
    (hR : OnlyNumbers R isFloat) (hu : b.Unpacks)
    (hsh : shared = true → ∃ body rest tail, b = .cons (.if_ c₁ body rest) tail)
    (ha : ∀ vs, initialized (intSem R) isFloat guess pure modified mutableExpr mutableStmt shared c₁ b c₂ = .ok (true, vs) →
      ∀ e ∈ c₁ :: c₂ :: b.exprs, AbsTranslated R isFloat vs e)
    (hi : ∀ x, initialized (intSem R) isFloat guess pure modified mutableExpr mutableStmt shared c₁ b c₂ ≠ .error x)
    (x : PyErr) :
    impliedAfter (intSem R) isFloat guess pure modified mutableExpr mutableStmt unsat shared c₁ b c₂ ≠ .error x := by
  unfold impliedAfter
  cases hini : initialized (intSem R) isFloat guess pure modified mutableExpr mutableStmt shared c₁ b c₂ with
  | error y => exact absurd hini (hi y)
  | ok p =>
    obtain ⟨q, vs⟩ := p
    cases q with
    | false => simp
    | true =>
      have hav := ha vs hini
      unfold initialized at hini
      obtain ⟨v1, h1, h⟩ := andThen_ok hini
      obtain ⟨v2, h2, h3⟩ := andThen_ok h
      have hexpr : ∀ {e : Expr} {vs vs' : Vars},
          validateExpr (intSem R) isFloat guess pure modified mutableExpr e vs = .ok (true, vs') →
          Admits R isFloat vs vs' [e] fun ws => Converts R isFloat ws e := by
        intro e vs vs' h
        unfold validateExpr at h
        split at h
        · cases h
        · exact validExpr_admits hR h
      have hb := validateStmts_admits hR b v1 v2 h2
      have hc2 := hexpr h3
      have gb : b.Converted R isFloat vs := hb.2 vs hc2.1 fun e he => hav e (by simp [he])
      have g2 : Converts R isFloat vs c₂ := hc2.2 vs (fun _ h => h) fun e he => hav e (by simp at he; simp [he])
      have g1 : Converts R isFloat vs c₁ := by
        cases shared with
        | true =>
          obtain ⟨body, rest, tail, rfl⟩ := hsh rfl
          simp only [Block.Converted, Stmt.Converted] at gb
          exact gb.1.1
        | false =>
          simp only [Bool.false_eq_true, if_false] at h1
          have hc1 := hexpr h1
          exact hc1.2 vs (hb.1.trans hc2.1) fun e he => hav e (by simp at he; simp [he])
      have hch : ∃ o, convertChain (intSem R) isFloat vs [([c₁], b)] [c₂] (fun _ => 0) start = .ok o := by
        simp only [convertChain]
        refine andSome_total (conditions_total g1) fun cs _ => andSome_total (afterBlock_total b _ _ _ _ gb hu) fun o _ => ?_
        cases o.1 with
        | ends => exact andSome_total (andSome_total (conditions_total g2) fun _ _ => ⟨_, rfl⟩) fun _ _ => ⟨_, rfl⟩
        | goes ver' _ as => exact andSome_total (andSome_total (conditions_total g2) fun _ _ => ⟨_, rfl⟩) fun _ _ => ⟨_, rfl⟩
      obtain ⟨o, ho⟩ := hch
      simp only [ho]
      split
      · rename_i h; cases h
      · simp
      · simp

end

/-- The hypotheses hold of `x > 0`, `if y > 2: x += 1 elif y == 2: x = 7`, `x > 0`. -/
example : bxBoth.Unpacks ∧ ∀ vs, ∀ e ∈ bxPos :: bxPos :: bxBoth.exprs, AbsTranslated noRest (fun _ => false) vs e := by
  simp [bxBoth, bxOne, bxVar, bxPos, Block.Unpacks, Stmt.Unpacks, Rest.Unpacks, Block.exprs, Stmt.exprs, Rest.exprs, parts,
    AbsTranslated, AbsTranslatedOps, exX, exInt]

end Verif.Py.Blocks
