import Verif.Model.Layout

/-!
# C152: `else` and `elif`
-/

namespace Verif.Layout

/-! ### What Python requires -/

def Stmts.nonempty : Stmts → Bool
  | .nil => false
  | .cons _ _ => true

mutual
/-- A statement at a column is written as Python requires: suites are not empty and to the right of the column, those in the same line contain simple statements only; loops have
no `elif`. -/
def Stmt.Ok (c : Nat) : Stmt → Prop
  | .simple _ => True
  | .ifS _ _ body tail => body.Ok c ∧ tail.Ok c
  | .loop _ _ _ body tail => body.Ok c ∧ tail.Ok c ∧ ∀ t e b l, tail ≠ .elif t e b l
  | .group _ suites => suites.Ok c
def Tail.Ok (c : Nat) : Tail → Prop
  | .none => True
  | .elif _ _ body tail => body.Ok c ∧ tail.Ok c
  | .els suite => suite.Ok c
def Suite.Ok (c : Nat) : Suite → Prop
  | .mk col inline stmts => c < col ∧ stmts.nonempty = true ∧ stmts.Ok inline col
def Stmts.Ok (inline : Bool) (c : Nat) : Stmts → Prop
  | .nil => True
  | .cons s rest => (inline = true → ∃ t, s = .simple t) ∧ s.Ok c ∧ rest.Ok inline c
def Suites.Ok (c : Nat) : Suites → Prop
  | .nil => True
  | .cons s rest => s.Ok c ∧ rest.Ok c
end

/-! ### What should be reported -/

/-- The tag of an `if` that is the only statement in an `else`. -/
def Tail.alone : Tail → List Nat
  | .els (.mk _ _ (.cons (.ifS tag _ _ _) .nil)) => [tag]
  | _ => []

mutual
/-- The `if`s that are alone in an `else` of an `if`. -/
def Stmt.aloneIfs : Stmt → List Nat
  | .simple _ => []
  | .ifS _ _ body tail => tail.alone ++ (body.aloneIfs ++ tail.aloneIfs)
  | .loop _ _ _ body tail => body.aloneIfs ++ tail.aloneIfs
  | .group _ suites => suites.aloneIfs
def Tail.aloneIfs : Tail → List Nat
  | .none => []
  | .elif _ _ body tail => tail.alone ++ (body.aloneIfs ++ tail.aloneIfs)
  | .els suite => suite.aloneIfs
def Suite.aloneIfs : Suite → List Nat
  | .mk _ _ stmts => stmts.aloneIfs
def Stmts.aloneIfs : Stmts → List Nat
  | .nil => []
  | .cons s rest => s.aloneIfs ++ rest.aloneIfs
def Suites.aloneIfs : Suites → List Nat
  | .nil => []
  | .cons s rest => s.aloneIfs ++ rest.aloneIfs
end

/-- The suite of an `else` starts at the given column. -/
def Tail.At (col : Nat) : Tail → Prop
  | .els suite => suite.col = col
  | _ => True

mutual
/-- The suite of an `else` starts at the same column as the one before it. -/
def Stmt.Uniform : Stmt → Prop
  | .simple _ => True
  | .ifS _ _ body tail => tail.At body.col ∧ body.Uniform ∧ tail.Uniform
  | .loop _ _ _ body tail => body.Uniform ∧ tail.Uniform
  | .group _ suites => suites.Uniform
def Tail.Uniform : Tail → Prop
  | .none => True
  | .elif _ _ body tail => tail.At body.col ∧ body.Uniform ∧ tail.Uniform
  | .els suite => suite.Uniform
def Suite.Uniform : Suite → Prop
  | .mk _ _ stmts => stmts.Uniform
def Stmts.Uniform : Stmts → Prop
  | .nil => True
  | .cons s rest => s.Uniform ∧ rest.Uniform
def Suites.Uniform : Suites → Prop
  | .nil => True
  | .cons s rest => s.Uniform ∧ rest.Uniform
end

/-! ### `use-elif` -/

theorem Node.col_node (c : Nat) : ∀ s : Stmt, (s.node c).col = c
  | .simple _ | .ifS .. | .loop .. | .group .. => by simp [Stmt.node, Node.col]

theorem all_append {α : Type} (check : Node → List α) : ∀ a b : Nodes, (a.append b).all check = a.all check ++ b.all check
  | .nil, b => by simp [Nodes.append, Nodes.all]
  | .cons n a, b => by simp [Nodes.append, Nodes.all, all_append check a b]

/-- What is reported at an `if` with a tail. -/
theorem elseIf_tail {c tag test : Nat} {body : Suite} (hb : body.Ok c) (tail : Tail) :
    (elseIf (.ifN tag c test body.nodes (tail.nodes c))).Sublist tail.alone ∧ (tail.At body.col → elseIf (.ifN tag c test body.nodes (tail.nodes c)) = tail.alone) := by
  obtain ⟨col, inline, stmts⟩ := body
  rw [Suite.Ok] at hb
  obtain ⟨hcol, hne, _⟩ := hb
  cases stmts with
  | nil => simp [Stmts.nonempty] at hne
  | cons b rest =>
    simp only [Suite.nodes, Stmts.nodes, Suite.col]
    cases tail with
    | none => simp [Tail.nodes, elseIf, Tail.alone]
    | elif t e b' tl =>
      simp only [Tail.nodes, elseIf, Tail.alone, Node.col_node]
      rw [if_neg (by omega)]
      simp
    | els suite =>
      obtain ⟨col', inline', stmts'⟩ := suite
      simp only [Tail.nodes, Suite.nodes, Tail.At, Suite.col]
      match stmts' with
      | .nil => simp [Stmts.nodes, elseIf, Tail.alone]
      | .cons (.simple _) .nil => simp [Stmts.nodes, Stmt.node, elseIf, Tail.alone]
      | .cons (.loop ..) .nil => simp [Stmts.nodes, Stmt.node, elseIf, Tail.alone]
      | .cons (.group ..) .nil => simp [Stmts.nodes, Stmt.node, elseIf, Tail.alone]
      | .cons (.ifS ..) .nil =>
        simp only [Stmts.nodes, Stmt.node, elseIf, Tail.alone, Node.col_node]
        by_cases h : col = col'
        · simp [h]
        · simp only [h, if_false]
          exact ⟨List.nil_sublist _, fun h' => absurd h'.symm h⟩
      | .cons s (.cons _ _) =>
        cases s <;> simp [Stmts.nodes, Stmt.node, elseIf, Tail.alone]

mutual
theorem sound_stmt (c : Nat) : ∀ s : Stmt, s.Ok c → ((s.node c).all elseIf).Sublist s.aloneIfs
  | .simple _, _ => by simp [Stmt.node, Node.all, elseIf, Stmt.aloneIfs]
  | .ifS tag test body tail, h => by
    rw [Stmt.Ok] at h
    rw [Stmt.node, Node.all, Stmt.aloneIfs]
    exact (elseIf_tail h.1 tail).1.append ((sound_suite c body h.1).append (sound_tail c tail h.2))
  | .loop tag kind head body tail, h => by
    rw [Stmt.Ok] at h
    rw [Stmt.node, Node.all, Stmt.aloneIfs, elseIf, List.nil_append]
    · exact (sound_suite c body h.1).append (sound_tail c tail h.2.1)
    · intros; contradiction
  | .group tag suites, h => by
    rw [Stmt.Ok] at h
    rw [Stmt.node, Node.all, Stmt.aloneIfs, elseIf, List.nil_append]
    · exact sound_suites c suites h
    · intros; contradiction
theorem sound_tail (c : Nat) : ∀ t : Tail, t.Ok c → ((t.nodes c).all elseIf).Sublist t.aloneIfs
  | .none, _ => by simp [Tail.nodes, Nodes.all]
  | .elif tag test body tail, h => by
    rw [Tail.Ok] at h
    rw [Tail.nodes, Nodes.all, Nodes.all, Node.all, Tail.aloneIfs, List.append_nil]
    exact (elseIf_tail h.1 tail).1.append ((sound_suite c body h.1).append (sound_tail c tail h.2))
  | .els suite, h => by
    rw [Tail.Ok] at h
    rw [Tail.nodes, Tail.aloneIfs]
    exact sound_suite c suite h
theorem sound_suite (c : Nat) : ∀ s : Suite, s.Ok c → (s.nodes.all elseIf).Sublist s.aloneIfs
  | .mk col inline stmts, h => by
    rw [Suite.Ok] at h
    rw [Suite.nodes, Suite.aloneIfs]
    exact sound_stmts inline col stmts h.2.2
theorem sound_stmts (inline : Bool) (c : Nat) : ∀ s : Stmts, s.Ok inline c → ((s.nodes c).all elseIf).Sublist s.aloneIfs
  | .nil, _ => by simp [Stmts.nodes, Nodes.all]
  | .cons s rest, h => by
    rw [Stmts.Ok] at h
    rw [Stmts.nodes, Nodes.all, Stmts.aloneIfs]
    exact (sound_stmt c s h.2.1).append (sound_stmts inline c rest h.2.2)
theorem sound_suites (c : Nat) : ∀ s : Suites, s.Ok c → (s.nodes.all elseIf).Sublist s.aloneIfs
  | .nil, _ => by simp [Suites.nodes, Nodes.all]
  | .cons s rest, h => by
    rw [Suites.Ok] at h
    rw [Suites.nodes, all_append, Suites.aloneIfs]
    exact (sound_suite c s h.1).append (sound_suites c rest h.2)
end

mutual
theorem exact_stmt (c : Nat) : ∀ s : Stmt, s.Ok c → s.Uniform → (s.node c).all elseIf = s.aloneIfs
  | .simple _, _, _ => by simp [Stmt.node, Node.all, elseIf, Stmt.aloneIfs]
  | .ifS tag test body tail, h, u => by
    rw [Stmt.Ok] at h
    rw [Stmt.Uniform] at u
    rw [Stmt.node, Node.all, Stmt.aloneIfs, (elseIf_tail h.1 tail).2 u.1, exact_suite c body h.1 u.2.1, exact_tail c tail h.2 u.2.2]
  | .loop tag kind head body tail, h, u => by
    rw [Stmt.Ok] at h
    rw [Stmt.Uniform] at u
    rw [Stmt.node, Node.all, Stmt.aloneIfs, elseIf, List.nil_append, exact_suite c body h.1 u.1, exact_tail c tail h.2.1 u.2]
    intros; contradiction
  | .group tag suites, h, u => by
    rw [Stmt.Ok] at h
    rw [Stmt.Uniform] at u
    rw [Stmt.node, Node.all, Stmt.aloneIfs, elseIf, List.nil_append, exact_suites c suites h u]
    intros; contradiction
theorem exact_tail (c : Nat) : ∀ t : Tail, t.Ok c → t.Uniform → (t.nodes c).all elseIf = t.aloneIfs
  | .none, _, _ => by simp [Tail.nodes, Nodes.all, Tail.aloneIfs]
  | .elif tag test body tail, h, u => by
    rw [Tail.Ok] at h
    rw [Tail.Uniform] at u
    rw [Tail.nodes, Nodes.all, Nodes.all, Node.all, Tail.aloneIfs, List.append_nil, (elseIf_tail h.1 tail).2 u.1, exact_suite c body h.1 u.2.1, exact_tail c tail h.2 u.2.2]
  | .els suite, h, u => by
    rw [Tail.Ok] at h
    rw [Tail.Uniform] at u
    rw [Tail.nodes, Tail.aloneIfs, exact_suite c suite h u]
theorem exact_suite (c : Nat) : ∀ s : Suite, s.Ok c → s.Uniform → s.nodes.all elseIf = s.aloneIfs
  | .mk col inline stmts, h, u => by
    rw [Suite.Ok] at h
    rw [Suite.Uniform] at u
    rw [Suite.nodes, Suite.aloneIfs, exact_stmts inline col stmts h.2.2 u]
theorem exact_stmts (inline : Bool) (c : Nat) : ∀ s : Stmts, s.Ok inline c → s.Uniform → (s.nodes c).all elseIf = s.aloneIfs
  | .nil, _, _ => by simp [Stmts.nodes, Nodes.all, Stmts.aloneIfs]
  | .cons s rest, h, u => by
    rw [Stmts.Ok] at h
    rw [Stmts.Uniform] at u
    rw [Stmts.nodes, Nodes.all, Stmts.aloneIfs, exact_stmt c s h.2.1 u.1, exact_stmts inline c rest h.2.2 u.2]
theorem exact_suites (c : Nat) : ∀ s : Suites, s.Ok c → s.Uniform → s.nodes.all elseIf = s.aloneIfs
  | .nil, _, _ => by simp [Suites.nodes, Nodes.all, Suites.aloneIfs]
  | .cons s rest, h, u => by
    rw [Suites.Ok] at h
    rw [Suites.Uniform] at u
    rw [Suites.nodes, all_append, Suites.aloneIfs, exact_suite c s h.1 u.1, exact_suites c rest h.2 u.2]
end

/-- **C152**, only such. `use-elif` is reported only for `if`s that are alone in an `else`, for each at most once and in the order in which they are written; never for an `elif`.
Programs are statements at the column 0. -/
theorem C152_only (program : Stmts) (h : program.Ok false 0) : ((program.nodes 0).all elseIf).Sublist program.aloneIfs := sound_stmts false 0 program h

/-- **C152** (partial), all such. If the suites of all `else`s start at the same column as the suites before them, then `use-elif` is reported for exactly the `if`s that are alone in
an `else`.

Missing: other `else`s, see `C152_indent_counterexample` and `C152_inline_counterexample`. -/
theorem C152_all_partial (program : Stmts) (h : program.Ok false 0) (hu : program.Uniform) : (program.nodes 0).all elseIf = program.aloneIfs :=
  exact_stmts false 0 program h hu

/-! ### The suggestion -/

mutual
/-- `else` and an `if` alone in it are written as `elif`. -/
def Stmt.withElif : Stmt → Stmt
  | .simple tag => .simple tag
  | .ifS tag test body tail => .ifS tag test body.withElif tail.withElif
  | .loop tag kind head body tail => .loop tag kind head body.withElif tail.kept
  | .group tag suites => .group tag suites.withElif
def Tail.withElif : Tail → Tail
  | .none => .none
  | .elif tag test body tail => .elif tag test body.withElif tail.withElif
  | .els (.mk _ _ (.cons (.ifS tag test body tail) .nil)) => .elif tag test body.withElif tail.withElif
  | .els suite => .els suite.withElif
/-- The `else` of a loop. -/
def Tail.kept : Tail → Tail
  | .none => .none
  | .elif tag test body tail => .elif tag test body.withElif tail.withElif
  | .els suite => .els suite.withElif
def Suite.withElif : Suite → Suite
  | .mk col inline stmts => .mk col inline stmts.withElif
def Stmts.withElif : Stmts → Stmts
  | .nil => .nil
  | .cons s rest => .cons s.withElif rest.withElif
def Suites.withElif : Suites → Suites
  | .nil => .nil
  | .cons s rest => .cons s.withElif rest.withElif
end

mutual
/-- A tree without its columns: what is executed. -/
def Node.bare : Node → Node
  | .simple tag _ => .simple tag 0
  | .ifN tag _ test body orelse => .ifN tag 0 test body.bare orelse.bare
  | .loop tag _ kind head body orelse => .loop tag 0 kind head body.bare orelse.bare
  | .group tag _ parts => .group tag 0 parts.bare
def Nodes.bare : Nodes → Nodes
  | .nil => .nil
  | .cons n rest => .cons n.bare rest.bare
end

theorem bare_append : ∀ a b : Nodes, (a.append b).bare = a.bare.append b.bare
  | .nil, b => by simp [Nodes.append, Nodes.bare]
  | .cons n a, b => by simp [Nodes.append, Nodes.bare, bare_append a b]

mutual
theorem bare_stmt (c c' : Nat) : ∀ s : Stmt, s.Ok c' → (s.withElif.node c).bare = (s.node c').bare
  | .simple _, _ => by simp [Stmt.withElif, Stmt.node, Node.bare]
  | .ifS _ _ body tail, h => by
    rw [Stmt.Ok] at h
    simp only [Stmt.withElif, Stmt.node, Node.bare, bare_suite c' body h.1, bare_tail c c' tail h.2]
  | .loop _ _ _ body tail, h => by
    rw [Stmt.Ok] at h
    simp only [Stmt.withElif, Stmt.node, Node.bare, bare_suite c' body h.1, bare_kept c c' tail h.2.1 h.2.2]
  | .group _ suites, h => by
    rw [Stmt.Ok] at h
    simp only [Stmt.withElif, Stmt.node, Node.bare, bare_suites c' suites h]
theorem bare_tail (c c' : Nat) : ∀ t : Tail, t.Ok c' → (t.withElif.nodes c).bare = (t.nodes c').bare
  | .none, _ => by simp [Tail.withElif, Tail.nodes, Nodes.bare]
  | .elif _ _ body tail, h => by
    rw [Tail.Ok] at h
    simp only [Tail.withElif, Tail.nodes, Nodes.bare, Node.bare, bare_suite c' body h.1, bare_tail c c' tail h.2]
  | .els (.mk col i (.cons (.ifS tag test body tail) .nil)), h => by
    rw [Tail.Ok, Suite.Ok, Stmts.Ok, Stmt.Ok] at h
    simp only [Tail.withElif, Tail.nodes, Suite.nodes, Stmts.nodes, Stmt.node, Nodes.bare, Node.bare, bare_suite col body h.2.2.2.1.1, bare_tail c col tail h.2.2.2.1.2]
  | .els (.mk col i .nil), h => by
    simp [Tail.withElif, Tail.nodes, Suite.withElif, Stmts.withElif, Suite.nodes, Stmts.nodes]
  | .els (.mk col i (.cons (.simple t) .nil)), h => by
    simp [Tail.withElif, Tail.nodes, Suite.withElif, Stmts.withElif, Stmt.withElif, Suite.nodes, Stmts.nodes, Stmt.node, Nodes.bare, Node.bare]
  | .els (.mk col i (.cons (.loop t k e b l) .nil)), h => by
    rw [Tail.Ok, Suite.Ok, Stmts.Ok] at h
    simp only [Tail.withElif, Tail.nodes, Suite.withElif, Stmts.withElif, Suite.nodes, Stmts.nodes, Nodes.bare, bare_stmt col col (.loop t k e b l) h.2.2.2.1]
  | .els (.mk col i (.cons (.group t b) .nil)), h => by
    rw [Tail.Ok, Suite.Ok, Stmts.Ok] at h
    simp only [Tail.withElif, Tail.nodes, Suite.withElif, Stmts.withElif, Suite.nodes, Stmts.nodes, Nodes.bare, bare_stmt col col (.group t b) h.2.2.2.1]
  | .els (.mk col i (.cons s (.cons s' rest))), h => by
    rw [Tail.Ok, Suite.Ok, Stmts.Ok, Stmts.Ok] at h
    have : (Tail.els (.mk col i (.cons s (.cons s' rest)))).withElif = .els (.mk col i (.cons s.withElif (.cons s'.withElif rest.withElif))) := by
      cases s <;> simp [Tail.withElif, Suite.withElif, Stmts.withElif]
    rw [this]
    simp only [Tail.nodes, Suite.nodes, Stmts.nodes, Nodes.bare, bare_stmt col col s h.2.2.2.1, bare_stmt col col s' h.2.2.2.2.2.1, bare_stmts i col rest h.2.2.2.2.2.2]
theorem bare_kept (c c' : Nat) : ∀ t : Tail, t.Ok c' → (∀ a e b l, t ≠ .elif a e b l) → (t.kept.nodes c).bare = (t.nodes c').bare
  | .none, _, _ => by simp [Tail.kept, Tail.nodes, Nodes.bare]
  | .elif _ _ _ _, _, hn => absurd rfl (hn _ _ _ _)
  | .els suite, h, _ => by
    rw [Tail.Ok] at h
    simp only [Tail.kept, Tail.nodes, bare_suite c' suite h]
theorem bare_suite (c : Nat) : ∀ s : Suite, s.Ok c → s.withElif.nodes.bare = s.nodes.bare
  | .mk col inline stmts, h => by
    rw [Suite.Ok] at h
    simp only [Suite.withElif, Suite.nodes, bare_stmts inline col stmts h.2.2]
theorem bare_stmts (inline : Bool) (c : Nat) : ∀ s : Stmts, s.Ok inline c → (s.withElif.nodes c).bare = (s.nodes c).bare
  | .nil, _ => by simp [Stmts.withElif, Stmts.nodes]
  | .cons s rest, h => by
    rw [Stmts.Ok] at h
    simp only [Stmts.withElif, Stmts.nodes, Nodes.bare, bare_stmt c c s h.2.1, bare_stmts inline c rest h.2.2]
theorem bare_suites (c : Nat) : ∀ s : Suites, s.Ok c → s.withElif.nodes.bare = s.nodes.bare
  | .nil, _ => by simp [Suites.withElif, Suites.nodes]
  | .cons s rest, h => by
    rw [Suites.Ok] at h
    simp only [Suites.withElif, Suites.nodes, bare_append, bare_suite c s h.1, bare_suites c rest h.2]
end

theorem bare_idem_col : ∀ n : Node, n.bare.col = 0
  | .simple .. | .ifN .. | .loop .. | .group .. => by simp [Node.bare, Node.col]

/-- **C152**, the suggestion. With `elif` instead of `else` and an `if` alone in it, the tree of the program is the same but for columns. -/
theorem C152_same (program : Stmts) (h : program.Ok false 0) : (program.withElif.nodes 0).bare = (program.nodes 0).bare := bare_stmts false 0 program h

/-! ### After the suggestion -/

theorem nonempty_withElif : ∀ s : Stmts, s.withElif.nonempty = s.nonempty
  | .nil => by simp [Stmts.withElif, Stmts.nonempty]
  | .cons .. => by simp [Stmts.withElif, Stmts.nonempty]

mutual
theorem mono_suite {c c' : Nat} (hc : c ≤ c') : ∀ s : Suite, s.Ok c' → s.Ok c
  | .mk col i stmts, h => by
    rw [Suite.Ok] at h ⊢
    exact ⟨by omega, h.2⟩
theorem mono_tail {c c' : Nat} (hc : c ≤ c') : ∀ t : Tail, t.Ok c' → t.Ok c
  | .none, _ => by simp [Tail.Ok]
  | .elif _ _ body tail, h => by
    rw [Tail.Ok] at h ⊢
    exact ⟨mono_suite hc body h.1, mono_tail hc tail h.2⟩
  | .els suite, h => by
    rw [Tail.Ok] at h ⊢
    exact mono_suite hc suite h
end

mutual
theorem ok_stmt (c : Nat) : ∀ s : Stmt, s.Ok c → s.withElif.Ok c
  | .simple _, _ => by simp [Stmt.withElif, Stmt.Ok]
  | .ifS _ _ body tail, h => by
    rw [Stmt.Ok] at h
    rw [Stmt.withElif, Stmt.Ok]
    exact ⟨ok_suite c body h.1, ok_tail c tail h.2⟩
  | .loop _ _ _ body tail, h => by
    rw [Stmt.Ok] at h
    rw [Stmt.withElif, Stmt.Ok]
    exact ⟨ok_suite c body h.1, ok_kept c tail h.2.1 h.2.2⟩
  | .group _ suites, h => by
    rw [Stmt.Ok] at h
    rw [Stmt.withElif, Stmt.Ok]
    exact ok_suites c suites h
theorem ok_tail (c : Nat) : ∀ t : Tail, t.Ok c → t.withElif.Ok c
  | .none, _ => by simp [Tail.withElif, Tail.Ok]
  | .elif _ _ body tail, h => by
    rw [Tail.Ok] at h
    rw [Tail.withElif, Tail.Ok]
    exact ⟨ok_suite c body h.1, ok_tail c tail h.2⟩
  | .els (.mk col i (.cons (.ifS tag test body tail) .nil)), h => by
    rw [Tail.Ok, Suite.Ok, Stmts.Ok, Stmt.Ok] at h
    rw [Tail.withElif, Tail.Ok]
    exact ⟨mono_suite (Nat.le_of_lt h.1) _ (ok_suite col body h.2.2.2.1.1), mono_tail (Nat.le_of_lt h.1) _ (ok_tail col tail h.2.2.2.1.2)⟩
  | .els (.mk col i .nil), h => by
    rw [Tail.Ok, Suite.Ok] at h
    exact absurd h.2.1 (by simp [Stmts.nonempty])
  | .els (.mk col i (.cons (.simple t) .nil)), h => by
    rw [Tail.Ok, Suite.Ok] at h
    simp only [Tail.withElif, Suite.withElif, Stmts.withElif, Stmt.withElif, Tail.Ok, Suite.Ok]
    exact h
  | .els (.mk col i (.cons (.loop t k e b l) .nil)), h => by
    rw [Tail.Ok, Suite.Ok, Stmts.Ok] at h
    simp only [Tail.withElif, Suite.withElif, Stmts.withElif, Tail.Ok, Suite.Ok, Stmts.Ok]
    have hn : i = true → False := fun hi => by obtain ⟨t', ht⟩ := h.2.2.1 hi; exact nomatch ht
    exact ⟨h.1, by simp [Stmts.nonempty], (fun hi => (hn hi).elim), ok_stmt col (.loop t k e b l) h.2.2.2.1, trivial⟩
  | .els (.mk col i (.cons (.group t b) .nil)), h => by
    rw [Tail.Ok, Suite.Ok, Stmts.Ok] at h
    simp only [Tail.withElif, Suite.withElif, Stmts.withElif, Tail.Ok, Suite.Ok, Stmts.Ok]
    have hn : i = true → False := fun hi => by obtain ⟨t', ht⟩ := h.2.2.1 hi; exact nomatch ht
    exact ⟨h.1, by simp [Stmts.nonempty], (fun hi => (hn hi).elim), ok_stmt col (.group t b) h.2.2.2.1, trivial⟩
  | .els (.mk col i (.cons s (.cons s' rest))), h => by
    rw [Tail.Ok, Suite.Ok, Stmts.Ok, Stmts.Ok] at h
    have : (Tail.els (.mk col i (.cons s (.cons s' rest)))).withElif = .els (.mk col i (.cons s.withElif (.cons s'.withElif rest.withElif))) := by
      cases s <;> simp [Tail.withElif, Suite.withElif, Stmts.withElif]
    rw [this]
    simp only [Tail.Ok, Suite.Ok, Stmts.Ok]
    refine ⟨h.1, by simp [Stmts.nonempty], fun hi => ?_, ok_stmt col s h.2.2.2.1, fun hi => ?_, ok_stmt col s' h.2.2.2.2.2.1, ok_stmts i col rest h.2.2.2.2.2.2⟩
    · obtain ⟨t, rfl⟩ := h.2.2.1 hi
      exact ⟨t, by simp [Stmt.withElif]⟩
    · obtain ⟨t, rfl⟩ := h.2.2.2.2.1 hi
      exact ⟨t, by simp [Stmt.withElif]⟩
theorem ok_kept (c : Nat) : ∀ t : Tail, t.Ok c → (∀ a e b l, t ≠ .elif a e b l) → t.kept.Ok c ∧ ∀ a e b l, t.kept ≠ .elif a e b l
  | .none, _, _ => by simp [Tail.kept, Tail.Ok]
  | .elif _ _ _ _, _, hn => absurd rfl (hn _ _ _ _)
  | .els suite, h, _ => by
    rw [Tail.Ok] at h
    simp only [Tail.kept, Tail.Ok]
    exact ⟨ok_suite c suite h, fun _ _ _ _ h' => nomatch h'⟩
theorem ok_suite (c : Nat) : ∀ s : Suite, s.Ok c → s.withElif.Ok c
  | .mk col inline stmts, h => by
    rw [Suite.Ok] at h
    rw [Suite.withElif, Suite.Ok, nonempty_withElif]
    exact ⟨h.1, h.2.1, ok_stmts inline col stmts h.2.2⟩
theorem ok_stmts (inline : Bool) (c : Nat) : ∀ s : Stmts, s.Ok inline c → s.withElif.Ok inline c
  | .nil, _ => by simp [Stmts.withElif, Stmts.Ok]
  | .cons s rest, h => by
    rw [Stmts.Ok] at h
    rw [Stmts.withElif, Stmts.Ok]
    refine ⟨fun hi => ?_, ok_stmt c s h.2.1, ok_stmts inline c rest h.2.2⟩
    obtain ⟨t, rfl⟩ := h.1 hi
    exact ⟨t, by simp [Stmt.withElif]⟩
theorem ok_suites (c : Nat) : ∀ s : Suites, s.Ok c → s.withElif.Ok c
  | .nil, _ => by simp [Suites.withElif, Suites.Ok]
  | .cons s rest, h => by
    rw [Suites.Ok] at h
    rw [Suites.withElif, Suites.Ok]
    exact ⟨ok_suite c s h.1, ok_suites c rest h.2⟩
end

mutual
theorem none_stmt : ∀ s : Stmt, s.withElif.aloneIfs = []
  | .simple _ => by simp [Stmt.withElif, Stmt.aloneIfs]
  | .ifS _ _ body tail => by simp [Stmt.withElif, Stmt.aloneIfs, none_suite body, none_tail tail]
  | .loop _ _ _ body tail => by simp [Stmt.withElif, Stmt.aloneIfs, none_suite body, none_kept tail]
  | .group _ suites => by simp [Stmt.withElif, Stmt.aloneIfs, none_suites suites]
theorem none_tail : ∀ t : Tail, t.withElif.alone = [] ∧ t.withElif.aloneIfs = []
  | .none => by simp [Tail.withElif, Tail.alone, Tail.aloneIfs]
  | .elif _ _ body tail => by
    have := none_tail tail
    rw [Tail.withElif, Tail.aloneIfs, this.1, this.2, none_suite body]
    simp [Tail.alone]
  | .els (.mk col i (.cons (.ifS tag test body tail) .nil)) => by
    have := none_tail tail
    rw [Tail.withElif, Tail.aloneIfs, this.1, this.2, none_suite body]
    simp [Tail.alone]
  | .els (.mk col i .nil) => by simp [Tail.withElif, Suite.withElif, Stmts.withElif, Tail.alone, Tail.aloneIfs, Suite.aloneIfs, Stmts.aloneIfs]
  | .els (.mk col i (.cons (.simple t) .nil)) => by
    simp [Tail.withElif, Suite.withElif, Stmts.withElif, Stmt.withElif, Tail.alone, Tail.aloneIfs, Suite.aloneIfs, Stmts.aloneIfs, Stmt.aloneIfs]
  | .els (.mk col i (.cons (.loop t k e b l) .nil)) => by
    have := none_stmt (.loop t k e b l)
    simp [Tail.withElif, Suite.withElif, Stmts.withElif, Tail.aloneIfs, Suite.aloneIfs, Stmts.aloneIfs, this]
    simp [Stmt.withElif, Tail.alone]
  | .els (.mk col i (.cons (.group t b) .nil)) => by
    have := none_stmt (.group t b)
    simp [Tail.withElif, Suite.withElif, Stmts.withElif, Tail.aloneIfs, Suite.aloneIfs, Stmts.aloneIfs, this]
    simp [Stmt.withElif, Tail.alone]
  | .els (.mk col i (.cons s (.cons s' rest))) => by
    have : (Tail.els (.mk col i (.cons s (.cons s' rest)))).withElif = .els (.mk col i (.cons s.withElif (.cons s'.withElif rest.withElif))) := by
      cases s <;> simp [Tail.withElif, Suite.withElif, Stmts.withElif]
    rw [this]
    have h1 := none_stmt s
    have h2 := none_stmt s'
    have h3 := none_stmts rest
    refine ⟨by cases s.withElif <;> rfl, ?_⟩
    simp [Tail.aloneIfs, Suite.aloneIfs, Stmts.aloneIfs, h1, h2, h3]
theorem none_kept : ∀ t : Tail, t.kept.aloneIfs = []
  | .none => by simp [Tail.kept, Tail.aloneIfs]
  | .elif _ _ body tail => by
    have := none_tail tail
    rw [Tail.kept, Tail.aloneIfs, this.1, this.2, none_suite body]
    rfl
  | .els suite => by simp [Tail.kept, Tail.aloneIfs, none_suite suite]
theorem none_suite : ∀ s : Suite, s.withElif.aloneIfs = []
  | .mk col inline stmts => by simp [Suite.withElif, Suite.aloneIfs, none_stmts stmts]
theorem none_stmts : ∀ s : Stmts, s.withElif.aloneIfs = []
  | .nil => by simp [Stmts.withElif, Stmts.aloneIfs]
  | .cons s rest => by simp [Stmts.withElif, Stmts.aloneIfs, none_stmt s, none_stmts rest]
theorem none_suites : ∀ s : Suites, s.withElif.aloneIfs = []
  | .nil => by simp [Suites.withElif, Suites.aloneIfs]
  | .cons s rest => by simp [Suites.withElif, Suites.aloneIfs, none_suite s, none_suites rest]
end

/-- **C152**, after the suggestion. Written with `elif`, the program is still one that Python accepts, and `use-elif` is not reported any longer. -/
theorem C152_done (program : Stmts) (h : program.Ok false 0) : program.withElif.Ok false 0 ∧ (program.withElif.nodes 0).all elseIf = [] := by
  have hok := ok_stmts false 0 program h
  refine ⟨hok, ?_⟩
  have := C152_only program.withElif hok
  rw [none_stmts] at this
  exact List.sublist_nil.mp this

/-! ### `no-loop-else` -/

/-- An `else`. -/
def Tail.isElse : Tail → Bool
  | .els _ => true
  | _ => false

mutual
/-- The loops that have an `else`. -/
def Stmt.loopsWithElse : Stmt → List (Nat × Kind)
  | .simple _ => []
  | .ifS _ _ body tail => body.loopsWithElse ++ tail.loopsWithElse
  | .loop tag kind _ body tail => (if tail.isElse then [(tag, kind)] else []) ++ (body.loopsWithElse ++ tail.loopsWithElse)
  | .group _ suites => suites.loopsWithElse
def Tail.loopsWithElse : Tail → List (Nat × Kind)
  | .none => []
  | .elif _ _ body tail => body.loopsWithElse ++ tail.loopsWithElse
  | .els suite => suite.loopsWithElse
def Suite.loopsWithElse : Suite → List (Nat × Kind)
  | .mk _ _ stmts => stmts.loopsWithElse
def Stmts.loopsWithElse : Stmts → List (Nat × Kind)
  | .nil => []
  | .cons s rest => s.loopsWithElse ++ rest.loopsWithElse
def Suites.loopsWithElse : Suites → List (Nat × Kind)
  | .nil => []
  | .cons s rest => s.loopsWithElse ++ rest.loopsWithElse
end

/-- The messages about loops: none about `async for`. -/
def loopMessages (l : List (Nat × Kind)) : List (Nat × Str) :=
  (l.filter fun p => p.2 ≠ .asyncFor).map fun p => (p.1, if p.2 = .while then "while".toList else "for".toList)

theorem loopMessages_append (a b : List (Nat × Kind)) : loopMessages (a ++ b) = loopMessages a ++ loopMessages b := by simp [loopMessages]

theorem loopElse_tail {c tag head : Nat} {kind : Kind} {body : Nodes} (tail : Tail) (h : tail.Ok c) (hn : ∀ a e b l, tail ≠ .elif a e b l) :
    loopElse (.loop tag c kind head body (tail.nodes c)) = loopMessages (if tail.isElse then [(tag, kind)] else []) := by
  cases tail with
  | none => cases kind <;> simp [Tail.nodes, loopElse, Tail.isElse, loopMessages]
  | elif a e b l => exact absurd rfl (hn _ _ _ _)
  | els suite =>
    obtain ⟨col, inline, stmts⟩ := suite
    rw [Tail.Ok, Suite.Ok] at h
    cases stmts with
    | nil => exact absurd h.2.1 (by simp [Stmts.nonempty])
    | cons s rest => cases kind <;> simp [Tail.nodes, Suite.nodes, Stmts.nodes, loopElse, Tail.isElse, loopMessages]

mutual
theorem loops_stmt (c : Nat) : ∀ s : Stmt, s.Ok c → (s.node c).all loopElse = loopMessages s.loopsWithElse
  | .simple _, _ => by simp [Stmt.node, Node.all, loopElse, Stmt.loopsWithElse, loopMessages]
  | .ifS tag test body tail, h => by
    rw [Stmt.Ok] at h
    rw [Stmt.node, Node.all, Stmt.loopsWithElse, loops_suite c body h.1, loops_tail c tail h.2, loopMessages_append]
    simp [loopElse]
  | .loop tag kind head body tail, h => by
    rw [Stmt.Ok] at h
    rw [Stmt.node, Node.all, Stmt.loopsWithElse, loops_suite c body h.1, loops_tail c tail h.2.1, loopElse_tail tail h.2.1 h.2.2, loopMessages_append, loopMessages_append]
  | .group tag suites, h => by
    rw [Stmt.Ok] at h
    rw [Stmt.node, Node.all, Stmt.loopsWithElse, loops_suites c suites h]
    simp [loopElse]
theorem loops_tail (c : Nat) : ∀ t : Tail, t.Ok c → (t.nodes c).all loopElse = loopMessages t.loopsWithElse
  | .none, _ => by simp [Tail.nodes, Nodes.all, Tail.loopsWithElse, loopMessages]
  | .elif tag test body tail, h => by
    rw [Tail.Ok] at h
    rw [Tail.nodes, Nodes.all, Nodes.all, Node.all, Tail.loopsWithElse, loops_suite c body h.1, loops_tail c tail h.2, loopMessages_append]
    simp [loopElse]
  | .els suite, h => by
    rw [Tail.Ok] at h
    rw [Tail.nodes, Tail.loopsWithElse, loops_suite c suite h]
theorem loops_suite (c : Nat) : ∀ s : Suite, s.Ok c → s.nodes.all loopElse = loopMessages s.loopsWithElse
  | .mk col inline stmts, h => by
    rw [Suite.Ok] at h
    rw [Suite.nodes, Suite.loopsWithElse, loops_stmts inline col stmts h.2.2]
theorem loops_stmts (inline : Bool) (c : Nat) : ∀ s : Stmts, s.Ok inline c → (s.nodes c).all loopElse = loopMessages s.loopsWithElse
  | .nil, _ => by simp [Stmts.nodes, Nodes.all, Stmts.loopsWithElse, loopMessages]
  | .cons s rest, h => by
    rw [Stmts.Ok] at h
    rw [Stmts.nodes, Nodes.all, Stmts.loopsWithElse, loops_stmt c s h.2.1, loops_stmts inline c rest h.2.2, loopMessages_append]
theorem loops_suites (c : Nat) : ∀ s : Suites, s.Ok c → s.nodes.all loopElse = loopMessages s.loopsWithElse
  | .nil, _ => by simp [Suites.nodes, Nodes.all, Suites.loopsWithElse, loopMessages]
  | .cons s rest, h => by
    rw [Suites.Ok] at h
    rw [Suites.nodes, all_append, Suites.loopsWithElse, loops_suite c s h.1, loops_suites c rest h.2, loopMessages_append]
end

/-- **C152** (partial), loops. `no-loop-else` is reported for exactly the `for` and `while` loops that have an `else`, with the name of the kind of loop.

Missing: `async for`, see `C152_async_counterexample`. -/
theorem C152_loops_partial (program : Stmts) (h : program.Ok false 0) :
    (program.nodes 0).all loopElse =
      (program.loopsWithElse.filter fun p => p.2 ≠ .asyncFor).map fun p => (p.1, if p.2 = .while then "while".toList else "for".toList) :=
  loops_stmts false 0 program h

/-! ### Examples -/

/-- Simple statements in lines of their own. -/
def lines (col tag : Nat) : Suite := .mk col false (.cons (.simple tag) .nil)

/--
```
if a:
    x
else:
    if b:
        y
    else:
        z
```
-/
def elseIfProgram : Stmts :=
  .cons (.ifS 1 0 (lines 4 2) (.els (.mk 4 false (.cons (.ifS 3 0 (lines 8 4) (.els (lines 8 5))) .nil)))) .nil

/--
```
if a:
    x
elif b:
        y
else:
        z
```
-/
def elifProgram : Stmts := .cons (.ifS 1 0 (lines 4 2) (.elif 3 0 (lines 8 4) (.els (lines 8 5)))) .nil

theorem elseIfProgram_ok : elseIfProgram.Ok false 0 := by
  simp [elseIfProgram, lines, Stmts.Ok, Stmt.Ok, Suite.Ok, Tail.Ok, Stmts.nonempty]

example : elseIfProgram.Uniform := by simp [elseIfProgram, lines, Stmts.Uniform, Stmt.Uniform, Suite.Uniform, Tail.Uniform, Tail.At, Suite.col]
example : (elseIfProgram.nodes 0).all elseIf = [3] := by decide +kernel
example : elseIfProgram.aloneIfs = [3] := by decide +kernel
example : elseIfProgram.withElif = elifProgram := by rfl
example : (elifProgram.nodes 0).all elseIf = [] := by decide +kernel

/-- Two statements in the `else`, of which one is an `if`. -/
example : ((Stmts.cons (.ifS 1 0 (lines 4 2) (.els (.mk 4 false (.cons (.ifS 3 0 (lines 8 4) .none) (.cons (.simple 5) .nil))))) .nil).nodes 0).all elseIf = [] := by decide +kernel

/-- The `else` of a loop is not that of an `if`. -/
example : ((Stmts.cons (.loop 1 .for 0 (lines 4 2) (.els (.mk 4 false (.cons (.ifS 3 0 (lines 8 4) .none) .nil)))) .nil).nodes 0).all elseIf = [] := by decide +kernel

example : ((Stmts.cons (.loop 1 .for 0 (.mk 4 false (.cons (.loop 2 .while 0 (lines 8 3) (.els (lines 8 4))) .nil)) (.els (lines 4 5))) .nil).nodes 0).all loopElse =
    [(1, "for".toList), (2, "while".toList)] := by decide +kernel

/--
```
if a:
  x
else:
    if b:
        y
```
-/
def indentProgram : Stmts := .cons (.ifS 1 0 (lines 2 2) (.els (.mk 4 false (.cons (.ifS 3 0 (lines 8 4) .none) .nil)))) .nil

/-- `C152_all_partial` without its condition is false: an `if` in an `else` that is indented differently than the body before it is not reported. -/
theorem C152_indent_counterexample : indentProgram.Ok false 0 ∧ indentProgram.aloneIfs = [3] ∧ (indentProgram.nodes 0).all elseIf = [] := by
  refine ⟨?_, by decide +kernel, by decide +kernel⟩
  simp [indentProgram, lines, Stmts.Ok, Stmt.Ok, Suite.Ok, Tail.Ok, Stmts.nonempty]

/--
```
if a: x
else:
    if b:
        y
```
-/
def inlineProgram : Stmts := .cons (.ifS 1 0 (.mk 6 true (.cons (.simple 2) .nil)) (.els (.mk 4 false (.cons (.ifS 3 0 (lines 8 4) .none) .nil)))) .nil

/-- The same of a body in the line of the `if`. -/
theorem C152_inline_counterexample : inlineProgram.Ok false 0 ∧ inlineProgram.aloneIfs = [3] ∧ (inlineProgram.nodes 0).all elseIf = [] := by
  refine ⟨?_, by decide +kernel, by decide +kernel⟩
  simp [inlineProgram, lines, Stmts.Ok, Stmt.Ok, Suite.Ok, Tail.Ok, Stmts.nonempty]

/-- `async for … else` is not reported. -/
theorem C152_async_counterexample : (Stmts.cons (.loop 1 .asyncFor 0 (lines 4 2) (.els (lines 4 3))) .nil).Ok false 0 ∧
    (Stmts.cons (.loop 1 .asyncFor 0 (lines 4 2) (.els (lines 4 3))) .nil).loopsWithElse = [(1, .asyncFor)] ∧
    ((Stmts.cons (.loop 1 .asyncFor 0 (lines 4 2) (.els (lines 4 3))) .nil).nodes 0).all loopElse = [] := by
  refine ⟨?_, by decide +kernel, by decide +kernel⟩
  simp [lines, Stmts.Ok, Stmt.Ok, Suite.Ok, Tail.Ok, Stmts.nonempty]

end Verif.Layout
