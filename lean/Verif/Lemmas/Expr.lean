import Verif.Model.Expr

/-! The text of an expression reads as that expression. -/

namespace Verif.Py

theorem BinOp.prec_le (op : BinOp) : op.prec ≤ 12 := by cases op <;> decide

theorem Expr.prec_le (e : Expr) : e.prec ≤ 13 := by
  cases e with
  | unary op e => by_cases h : op = .not <;> simp [Expr.prec, h]
  | bin op l r => exact Nat.le_succ_of_le op.prec_le
  | boolOp b vs => cases b <;> simp [Expr.prec, boolPrec]
  | _ => simp [Expr.prec]

/-- A text may stand where looser text is allowed. -/
theorem Reads.mono {p q : Nat} {t : List Tok} {e : Expr} (h : Reads q t e) (hpq : p ≤ q) : Reads p t e := by
  obtain ⟨d, rfl⟩ := Nat.exists_eq_add_of_le hpq
  induction d with
  | zero => exact h
  | succ d ih => exact ih (Reads.weaken h) (Nat.le_add_right _ _)

theorem reads_wrap {p : Nat} (hp : p ≤ 13) {e : Expr} {t : List Tok} (h : Reads e.prec t e) :
    Reads p (wrap p e t) e := by
  unfold wrap
  split
  · rename_i hle; exact h.mono hle
  · exact (Reads.paren (h.mono (Nat.zero_le _))).mono hp

mutual
theorem reads_text : ∀ e : Expr, e.Ok → Reads e.prec e.text e
  | .const v, _ => by rw [Expr.text]; exact .lit v
  | .name x, _ => by rw [Expr.text]; exact .name x
  | .unary op e, h => by
    have ih := reads_text e (by simpa [Expr.Ok] using h)
    rw [Expr.text]
    by_cases hop : op = .not
    · subst hop
      simp only [if_pos, Expr.prec]
      exact .not (reads_wrap (by decide) ih)
    · simp only [hop, if_false, Expr.prec]
      exact .unary hop (reads_wrap (by decide) ih)
  | .bin op l r, h => by
    obtain ⟨hl, hr⟩ : l.Ok ∧ r.Ok := by simpa [Expr.Ok] using h
    have il := reads_text l hl
    have ir := reads_text r hr
    rw [Expr.text]
    by_cases hop : op = .pow
    · subst hop
      simp only [if_pos, Expr.prec]
      exact .pow (reads_wrap (by decide) il) (reads_wrap (by decide) ir)
    · simp only [hop, if_false, Expr.prec]
      exact .bin hop (reads_wrap (Nat.le_succ_of_le op.prec_le) il)
        (reads_wrap (Nat.succ_le_succ op.prec_le) ir)
  | .boolOp isOr vs, h => by
    obtain ⟨hlen, hall⟩ : 2 ≤ vs.length ∧ OkAll vs := by simpa [Expr.Ok] using h
    have ih := reads_textBool isOr vs hall (by intro h0; rw [h0] at hlen; simp at hlen)
    rw [Expr.text]
    match vs, hlen, ih with
    | v :: w :: vs, _, ih => exact .boolOp ih
  | .compare l ops, h => by
    obtain ⟨hlen, hl, hall⟩ : 1 ≤ ops.length ∧ l.Ok ∧ OkOps ops := by simpa [Expr.Ok] using h
    have il := reads_text l hl
    have ih := reads_textOps ops hall (by intro h0; rw [h0] at hlen; simp at hlen)
    rw [Expr.text]
    match ops, hlen, ih with
    | op :: ops, _, ih => exact .compare (reads_wrap (by decide) il) ih
  | .call f as, h => by
    obtain ⟨hf, has⟩ : f.Ok ∧ OkAll as := by simpa [Expr.Ok] using h
    rw [Expr.text]
    exact .call (reads_wrap (by decide) (reads_text f hf)) (reads_textArgs as has)
  | .attr e a, h => by
    have ih := reads_text e (by simpa [Expr.Ok] using h)
    rw [Expr.text]
    exact .attr a (reads_wrap (by decide) ih)
  | .subscript e i, h => by
    obtain ⟨he, hi⟩ : e.Ok ∧ i.Ok := by simpa [Expr.Ok] using h
    rw [Expr.text]
    exact .subscript (reads_wrap (by decide) (reads_text e he)) ((reads_text i hi).mono (Nat.zero_le _))
  | .ifExp c a b, h => by
    obtain ⟨hc, ha, hb⟩ : c.Ok ∧ a.Ok ∧ b.Ok := by simpa [Expr.Ok] using h
    rw [Expr.text]
    exact .ifExp (reads_wrap (by decide) (reads_text a ha)) (reads_wrap (by decide) (reads_text c hc))
      ((reads_text b hb).mono (Nat.zero_le _))
  | .other t es, _ => by rw [Expr.text]; exact .bracketed t es

theorem reads_textArgs : ∀ es : List Expr, OkAll es → ReadsArgs (textArgs es) es
  | [], _ => by rw [textArgs]; exact .nil
  | [e], h => by
    rw [textArgs]
    exact .one ((reads_text e (by simpa [OkAll] using h)).mono (Nat.zero_le _))
  | e :: f :: es, h => by
    obtain ⟨he, hes⟩ : e.Ok ∧ OkAll (f :: es) := by simpa [OkAll] using h
    rw [textArgs]
    exact .cons ((reads_text e he).mono (Nat.zero_le _)) (reads_textArgs (f :: es) hes)

theorem reads_textBool (isOr : Bool) :
    ∀ es : List Expr, OkAll es → es ≠ [] → ReadsBool isOr (textBool isOr es) es
  | [], _, h => absurd rfl h
  | [e], h, _ => by
    rw [textBool]
    exact .one (reads_wrap (by cases isOr <;> decide) (reads_text e (by simpa [OkAll] using h)))
  | e :: f :: es, h, _ => by
    obtain ⟨he, hes⟩ : e.Ok ∧ OkAll (f :: es) := by simpa [OkAll] using h
    rw [textBool]
    exact .cons (reads_wrap (by cases isOr <;> decide) (reads_text e he))
      (reads_textBool isOr (f :: es) hes (by simp))

theorem reads_textOps : ∀ es : List (CmpOp × Expr), OkOps es → es ≠ [] → ReadsOps (textOps es) es
  | [], _, h => absurd rfl h
  | [(op, e)], h, _ => by
    rw [textOps, textOps, List.append_nil]
    exact .one (reads_wrap (by decide) (reads_text e (by simpa [OkOps] using h)))
  | (op, e) :: (o, f) :: es, h, _ => by
    obtain ⟨he, hes⟩ : e.Ok ∧ OkOps ((o, f) :: es) := by simpa [OkOps] using h
    rw [textOps]
    exact .cons (reads_wrap (by decide) (reads_text e he)) (reads_textOps _ hes (by simp))
end

/-- The text of an expression may be embedded where its precedence is enough. -/
theorem reads_text_at {p : Nat} {e : Expr} (h : e.Ok) (hp : p ≤ e.prec) : Reads p e.text e :=
  (reads_text e h).mono hp

end Verif.Py

namespace Verif.Py

theorem UnOp.tok_ne_bad (op : UnOp) : op.tok ≠ .bad := by cases op <;> simp [UnOp.tok]
theorem BinOp.tok_ne_bad (op : BinOp) : op.tok ≠ .bad := by cases op <;> simp [BinOp.tok]
theorem CmpOp.bad_notMem_toks (op : CmpOp) : Tok.bad ∉ op.toks := by cases op <;> simp [CmpOp.toks]
theorem boolTok_ne_bad (b : Bool) : boolTok b ≠ .bad := by cases b <;> simp [boolTok]

mutual
/-- A text with characters that do not form a token does not read as an expression. -/
theorem Reads.no_bad : ∀ {p t e}, Reads p t e → Tok.bad ∉ t
  | _, _, _, .lit v => by simp
  | _, _, _, .name x => by simp
  | _, _, _, .bracketed t es => by simp
  | _, _, _, .paren h => by
    have := h.no_bad
    simp [this]
  | _, _, _, .call h h' => by
    have := h.no_bad
    have := h'.no_bad
    simp [*]
  | _, _, _, .attr a h => by
    have := h.no_bad
    simp [*]
  | _, _, _, .subscript h h' => by
    have := h.no_bad
    have := h'.no_bad
    simp [*]
  | _, _, _, .pow h h' => by
    have := h.no_bad
    have := h'.no_bad
    simp [*, BinOp.tok]
  | _, _, _, .unary (op := op) _ h => by
    have := h.no_bad
    have := op.tok_ne_bad.symm
    simp [*]
  | _, _, _, .bin (op := op) _ h h' => by
    have := h.no_bad
    have := h'.no_bad
    have := op.tok_ne_bad.symm
    simp [*]
  | _, _, _, .compare h h' => by
    have := h.no_bad
    have := h'.no_bad
    simp [*]
  | _, _, _, .not h => by
    have := h.no_bad
    simp [*, UnOp.tok]
  | _, _, _, .boolOp h => h.no_bad
  | _, _, _, .ifExp h h' h'' => by
    have := h.no_bad
    have := h'.no_bad
    have := h''.no_bad
    simp [*]
  | _, _, _, .weaken h => h.no_bad

theorem ReadsArgs.no_bad : ∀ {t es}, ReadsArgs t es → Tok.bad ∉ t
  | _, _, .nil => by simp
  | _, _, .one h => h.no_bad
  | _, _, .cons h h' => by
    have := h.no_bad
    have := h'.no_bad
    simp [*]

theorem ReadsBool.no_bad : ∀ {b t es}, ReadsBool b t es → Tok.bad ∉ t
  | _, _, _, .one h => h.no_bad
  | b, _, _, .cons h h' => by
    have := h.no_bad
    have := h'.no_bad
    have := (boolTok_ne_bad b).symm
    simp [*]

theorem ReadsOps.no_bad : ∀ {t es}, ReadsOps t es → Tok.bad ∉ t
  | _, _, .one (op := op) h => by
    have := h.no_bad
    have := op.bad_notMem_toks
    simp [*]
  | _, _, .cons (op := op) h h' => by
    have := h.no_bad
    have := h'.no_bad
    have := op.bad_notMem_toks
    simp [*]
end

end Verif.Py
