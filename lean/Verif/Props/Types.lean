import Verif.Model.Types
import Mathlib.Data.Finset.Card

/-!
C43: sets of types behave as finite sets.
C42: where the guess of a type is right.
-/

namespace Verif.Py

/-! ### C43 -/

/-- The sets of types the program builds, with the finite set each stands for. -/
inductive Denotes : Types → Finset Ty → Prop where
  | empty : Denotes .empty ∅
  | of (t : Ty) : Denotes (.of t) {t}
  | and {a b A B} : Denotes a A → Denotes b B → Denotes (a &&& b) (A ∩ B)
  | or {a b A B} : Denotes a A → Denotes b B → Denotes (a ||| b) (A ∪ B)

theorem has_eq (s : Types) (t : Ty) : s.has t = s.types.testBit t.value := by
  unfold Types.has
  rw [Nat.one_shiftLeft]
  cases hb : s.types.testBit t.value with
  | false =>
    have : 2 ^ t.value &&& s.types = 0 := by
      apply Nat.eq_of_testBit_eq
      intro i
      rw [Nat.testBit_and, Nat.testBit_two_pow, Nat.zero_testBit]
      by_cases hi : t.value = i
      · rw [← hi, hb]; simp
      · simp [hi]
    simp [this]
  | true =>
    have h : (2 ^ t.value &&& s.types).testBit t.value = true := by
      rw [Nat.testBit_and, Nat.testBit_two_pow, hb]; simp
    have : 2 ^ t.value &&& s.types ≠ 0 := by
      intro h0; rw [h0, Nat.zero_testBit] at h; cases h
    exact decide_eq_true (Nat.pos_of_ne_zero this)

theorem value_inj {t u : Ty} (h : t.value = u.value) : t = u := by
  cases t <;> cases u <;> simp [Ty.value] at h ⊢

theorem has_of (t u : Ty) : (Types.of t).has u = decide (u = t) := by
  cases t <;> cases u <;> decide

theorem has_self (t : Ty) : (Types.of t).has t = true := by cases t <;> decide

theorem has_empty (u : Ty) : Types.empty.has u = false := by
  cases u <;> decide

theorem has_and (a b : Types) (t : Ty) : (a &&& b).has t = (a.has t && b.has t) := by
  simp only [has_eq]; exact Nat.testBit_and _ _ _

theorem has_or (a b : Types) (t : Ty) : (a ||| b).has t = (a.has t || b.has t) := by
  simp only [has_eq]; exact Nat.testBit_or _ _ _

theorem Denotes.has {s : Types} {S : Finset Ty} (h : Denotes s S) (t : Ty) : s.has t = true ↔ t ∈ S := by
  induction h with
  | empty => simp [has_empty]
  | of u => simp [has_of]
  | and _ _ iha ihb => simp [has_and, iha, ihb]
  | or _ _ iha ihb => simp [has_or, iha, ihb]

theorem mem_all (t : Ty) : t ∈ Ty.all := by cases t <;> decide

theorem nodup_all : Ty.all.Nodup := by decide

/-- The bits a built set may have are those of the types. -/
theorem Denotes.bits {s : Types} {S : Finset Ty} (h : Denotes s S) (i : Nat) (hi : s.types.testBit i = true) :
    i ∈ Ty.all.map Ty.value := by
  induction h with
  | empty => simp [Types.empty] at hi
  | of u =>
    simp only [Types.of, Nat.one_shiftLeft, Nat.testBit_two_pow] at hi
    simp only [decide_eq_true_eq] at hi
    exact List.mem_map.2 ⟨u, mem_all u, hi⟩
  | and _ _ iha _ =>
    refine iha ?_
    have : (_ &&& _ : Nat).testBit i = true := hi
    rw [Nat.testBit_and] at this
    simp only [Bool.and_eq_true] at this
    exact this.1
  | or _ _ iha ihb =>
    have : (_ ||| _ : Nat).testBit i = true := hi
    rw [Nat.testBit_or] at this
    simp only [Bool.or_eq_true] at this
    exact this.elim iha ihb

theorem len_eq {s : Types} (hb : ∀ i, s.types.testBit i = true → i ∈ Ty.all.map Ty.value) :
    s.len = s.get.length := by
  unfold Types.len bitCount Types.get
  rw [List.countP_eq_length_filter]
  have hl : (Ty.all.filter s.has).length = ((Ty.all.map Ty.value).filter fun i => s.types.testBit i).length := by
    rw [List.filter_map, List.length_map]
    congr 1
    apply List.filter_congr
    intro t _
    exact has_eq s t
  rw [hl]
  apply List.Perm.length_eq
  rw [List.perm_ext_iff_of_nodup (List.nodup_range.filter _)
    ((show (Ty.all.map Ty.value).Nodup by decide).filter _)]
  intro i
  simp only [List.mem_filter, List.mem_range]
  constructor
  · rintro ⟨_, h⟩; exact ⟨hb i h, h⟩
  · rintro ⟨_, h⟩
    refine ⟨?_, h⟩
    have := Nat.ge_two_pow_of_testBit h
    exact lt_of_lt_of_le Nat.lt_two_pow_self this

theorem mem_get (s : Types) (t : Ty) : t ∈ s.get ↔ s.has t = true := by
  simp [Types.get, mem_all]

theorem nodup_get (s : Types) : s.get.Nodup := nodup_all.filter _

/-- C43: a set of types built from single types by union and intersection behaves as the finite set it stands for. -/
theorem C43 {s : Types} {S : Finset Ty} (h : Denotes s S) :
    (∀ t, s.has t = true ↔ t ∈ S) ∧
    s.len = S.card ∧
    (∀ t, t ∈ s.get ↔ t ∈ S) ∧ s.get.Nodup ∧ s.get.Sublist Ty.all ∧
    (∀ ts : List Ty, s.hasOnly ts = true ↔ ∀ t ∈ S, t ∈ ts) ∧
    (s.anyMutable = true ↔ .list ∈ S ∨ .set ∈ S ∨ .dict ∈ S) ∧
    (s.anyContainer = true ↔ .string ∈ S ∨ .list ∈ S ∨ .tuple ∈ S ∨ .set ∈ S ∨ .dict ∈ S) := by
  have hg : ∀ t, t ∈ s.get ↔ t ∈ S := fun t => (mem_get s t).trans (h.has t)
  refine ⟨h.has, ?_, hg, nodup_get s, List.filter_sublist, ?_, ?_, ?_⟩
  · rw [len_eq h.bits, ← List.toFinset_card_of_nodup (nodup_get s)]
    congr 1
    ext t
    rw [List.mem_toFinset, hg]
  · intro ts
    simp [Types.hasOnly, List.all_eq_true, hg]
  · simp [Types.anyMutable, h.has]
  · simp [Types.anyContainer, h.has]

/-- C43: two built sets are equal exactly if they stand for the same set. -/
theorem C43_ext {a b : Types} {A B : Finset Ty} (ha : Denotes a A) (hb : Denotes b B) : a = b ↔ A = B := by
  constructor
  · rintro rfl
    ext t
    rw [← ha.has, ← hb.has]
  · rintro rfl
    have : a.types = b.types := by
      apply Nat.eq_of_testBit_eq
      intro i
      by_cases hi : i ∈ Ty.all.map Ty.value
      · obtain ⟨t, _, rfl⟩ := List.mem_map.1 hi
        rw [← has_eq, ← has_eq, Bool.eq_iff_iff, ha.has, hb.has]
      · have h1 : a.types.testBit i ≠ true := fun h => hi (ha.bits i h)
        have h2 : b.types.testBit i ≠ true := fun h => hi (hb.bits i h)
        simp only [Bool.not_eq_true] at h1 h2
        rw [h1, h2]
    cases a; cases b; simpa using this

example : (Types.of .int ||| .of .float ||| .of .int).len = 2 ∧ (Types.of .int ||| .of .float).get = [.int, .float] ∧
    (Types.of .int ||| .of .float).hasOnly [.float, .int, .set] = true ∧
    (Types.of .int ||| .of .float).hasOnly [.float] = false ∧ (Types.of .dict).anyMutable = true ∧
    (Types.of .tuple).anyMutable = false ∧ (Types.of .tuple).anyContainer = true := by
  decide

/-! ### C42: the types values have, after the language and library reference -/

/-- The type of a value; `none` for the types the analysis has no name for. -/
abbrev RTy := Option Ty

/-- `bool` is a subclass of `int`. -/
def RTy.IntLike (a : RTy) : Prop := a = some .int ∨ a = some .bool
def RTy.Numeric (a : RTy) : Prop := a.IntLike ∨ a = some .float
def RTy.Seq (a : RTy) : Prop := a = some .string ∨ a = some .list ∨ a = some .tuple

/-- `1 + True` is an integer, `1 + 1.5` is not. -/
def arith (a b τ : RTy) : Prop :=
  (a.IntLike ∧ b.IntLike ∧ τ = some .int) ∨
    (a.Numeric ∧ b.Numeric ∧ (a = some .float ∨ b = some .float) ∧ τ = some .float)

/-- The types the result of a binary operation may have; classes of other kinds may define operations as they like. -/
def binTy (op : BinOp) (a b τ : RTy) : Prop :=
  a = none ∨ b = none ∨
    match op with
    | .add => arith a b τ ∨ (a.Seq ∧ b = a ∧ τ = a)
    | .sub => arith a b τ ∨ (a = some .set ∧ b = some .set ∧ τ = some .set)
    | .mul => arith a b τ ∨ (a.Seq ∧ b.IntLike ∧ τ = a) ∨ (a.IntLike ∧ b.Seq ∧ τ = b)
    | .div => a.Numeric ∧ b.Numeric ∧ τ = some .float
    | .floordiv => arith a b τ
    | .mod => arith a b τ ∨ (a = some .string ∧ τ = some .string)
    | .pow => (a.IntLike ∧ b.IntLike ∧ (τ = some .int ∨ τ = some .float)) ∨
        (a = some .float ∧ b.IntLike ∧ τ = some .float) ∨
        (a.Numeric ∧ b = some .float ∧ (τ = some .float ∨ τ = none))
    | .lshift | .rshift => a.IntLike ∧ b.IntLike ∧ τ = some .int
    | .bitand | .bitxor => (a = some .bool ∧ b = some .bool ∧ τ = some .bool) ∨
        (a.IntLike ∧ b.IntLike ∧ (a = some .int ∨ b = some .int) ∧ τ = some .int) ∨
        (a = some .set ∧ b = some .set ∧ τ = some .set)
    | .bitor => (a = some .bool ∧ b = some .bool ∧ τ = some .bool) ∨
        (a.IntLike ∧ b.IntLike ∧ (a = some .int ∨ b = some .int) ∧ τ = some .int) ∨
        (a = some .set ∧ b = some .set ∧ τ = some .set) ∨ (a = some .dict ∧ b = some .dict ∧ τ = some .dict)
    | .matmul => False

def unTy (op : UnOp) (a τ : RTy) : Prop :=
  match op with
  | .not => τ = some .bool
  | .pos | .neg => a = none ∨ (a.IntLike ∧ τ = some .int) ∨ (a = some .float ∧ τ = some .float)
  | .invert => a = none ∨ (a.IntLike ∧ τ = some .int)

def litTy : Lit → RTy
  | .bool _ => some .bool
  | .int _ => some .int
  | .float _ => some .float
  | .str _ => some .string
  | _ => none

/-- What a built-in function gives for arguments of the given types. -/
def builtinTy (f : Str) (args : List RTy) (τ : RTy) : Prop :=
  if f ∈ ["all".toList, "any".toList, "bool".toList, "callable".toList, "isinstance".toList, "issubclass".toList] then
    τ = some .bool
  else if f ∈ ["ascii".toList, "bin".toList, "chr".toList, "hex".toList, "input".toList, "oct".toList, "repr".toList,
      "str".toList] then τ = some .string
  else if f ∈ ["int".toList, "len".toList, "ord".toList] then τ = some .int
  else if f = "float".toList then τ = some .float
  else if f = "dict".toList then τ = some .dict
  else if f = "set".toList then τ = some .set
  else if f = "tuple".toList then τ = some .tuple
  else if f ∈ ["list".toList, "sorted".toList] then τ = some .list
  else if f = "abs".toList then
    ∃ a, args = [a] ∧ (a = none ∨ (a.IntLike ∧ τ = some .int) ∨ (a = some .float ∧ τ = some .float))
  else if f = "round".toList then
    none ∈ args ∨ (∃ a, args = [a] ∧ a.Numeric ∧ τ = some .int) ∨
      (∃ a b, args = [a, b] ∧ ((a.IntLike ∧ τ = some .int) ∨ (a = some .float ∧ τ = some .float)))
  else if f = "divmod".toList then none ∈ args ∨ τ = some .tuple
  else if f = "pow".toList then
    none ∈ args ∨ (∃ a b, args = [a, b] ∧ binTy .pow a b τ) ∨ (∃ a b c, args = [a, b, c] ∧ τ = some .int)
  else True

/-- What a method of strings gives. -/
def stringMethodTy (m : Str) (τ : RTy) : Prop :=
  if m ∈ ["capitalize".toList, "casefold".toList, "center".toList, "expandtabs".toList, "format".toList,
      "format_map".toList, "join".toList, "ljust".toList, "lower".toList, "lstrip".toList, "removeprefix".toList,
      "removesuffix".toList, "replace".toList, "rjust".toList, "rstrip".toList, "strip".toList, "swapcase".toList,
      "title".toList, "translate".toList, "upper".toList, "zfill".toList] then τ = some .string
  else if m ∈ ["count".toList, "find".toList, "index".toList, "rfind".toList, "rindex".toList] then τ = some .int
  else if m ∈ ["endswith".toList, "isalnum".toList, "isalpha".toList, "isascii".toList, "isdecimal".toList,
      "isdigit".toList, "isidentifier".toList, "islower".toList, "isnumeric".toList, "isprintable".toList,
      "isspace".toList, "istitle".toList, "isupper".toList, "startswith".toList] then τ = some .bool
  else if m ∈ ["rsplit".toList, "split".toList, "splitlines".toList] then τ = some .list
  else if m ∈ ["partition".toList, "rpartition".toList] then τ = some .tuple
  else if m = "maketrans".toList then τ = some .dict
  else if m = "encode".toList then τ = none
  else False

/-- What a function of a module gives. -/
def moduleTy (m f : Str) (τ : RTy) : Prop :=
  if m = "math".toList ∧ f = "trunc".toList then τ = some .int
  else if m = "math".toList ∧
      f ∈ ["sqrt".toList, "cos".toList, "sin".toList, "radians".toList, "degrees".toList] then τ = some .float
  else True

/-- Displays and comprehensions; any other expression may give anything. -/
def displayTy (tag : Str) (τ : RTy) : Prop :=
  if tag = "Tuple".toList then τ = some .tuple
  else if tag ∈ ["List".toList, "ListComp".toList] then τ = some .list
  else if tag ∈ ["Dict".toList, "DictComp".toList] then τ = some .dict
  else if tag ∈ ["Set".toList, "SetComp".toList] then τ = some .set
  else if tag = "JoinedStr".toList then τ = some .string
  else True

/-- What names stand for when an expression is evaluated: the types a variable's value may have, whether a name is that of
the built-in function, the module and the name it was imported from, and the module an expression gives. -/
structure World where
  var : Str → RTy → Prop
  builtin : Str → Prop
  imported : Str → Option (Str × Str)
  moduleOf : Expr → Option Str

mutual
/-- The expression may have a value of the type. -/
def HasTy (W : World) : Expr → RTy → Prop
  | .const v, τ => τ = litTy v
  | .name x, τ => W.var x τ
  | .unary op e, τ => ∃ a, HasTy W e a ∧ unTy op a τ
  | .bin op l r, τ => ∃ a b, HasTy W l a ∧ HasTy W r b ∧ binTy op a b τ
  | .boolOp _ es, τ => AnyTy W es τ
  | .compare e rest, τ => τ = some .bool ∨ HasTy W e none ∨ AnyTyOps W rest none
  | .ifExp _ a b, τ => HasTy W a τ ∨ HasTy W b τ
  | .subscript _ _, _ => True
  | .attr _ _, _ => True
  | .call f args, τ =>
    match f with
    | .name x =>
      (W.builtin x ∧ ∃ as, ArgTys W args as ∧ builtinTy x as τ) ∨
        (¬ W.builtin x ∧ ∀ m g, W.imported x = some (m, g) → moduleTy m g τ)
    | .attr e a =>
      ∃ b, HasTy W e b ∧ (b = some .string → stringMethodTy a τ) ∧
        (b = some .module → ∀ m, W.moduleOf e = some m → moduleTy m a τ)
    | _ => True
  | .other tag _, τ => displayTy tag τ

def AnyTy (W : World) : List Expr → RTy → Prop
  | [], _ => False
  | e :: es, τ => HasTy W e τ ∨ AnyTy W es τ

def AnyTyOps (W : World) : List (CmpOp × Expr) → RTy → Prop
  | [], _ => False
  | (_, e) :: es, τ => HasTy W e τ ∨ AnyTyOps W es τ

def ArgTys (W : World) : List Expr → List RTy → Prop
  | [], as => as = []
  | e :: es, as => ∃ a rest, as = a :: rest ∧ HasTy W e a ∧ ArgTys W es rest
end

/-- The guess is not empty. -/
def Types.Known (s : Types) : Prop := ∃ t, s.has t = true

/-- The guess is a single type. -/
def Types.Single (s : Types) : Prop := ∃ t, ∀ u, s.has u = true ↔ u = t

/-- The arguments for which a built-in function's result is guessed right. -/
def builtinSafe (f : Str) (args : List RTy) : Prop :=
  (f = "abs".toList → ∀ a ∈ args, a.IntLike) ∧
  (f = "round".toList → none ∉ args ∧ (args.length = 1 ∨ ∀ a ∈ args, a.IntLike)) ∧
  (f = "divmod".toList → none ∉ args) ∧
  (f = "pow".toList → ∀ a ∈ args, a.IntLike) ∧
  f ≠ "sum".toList

section
variable {σ : Type} (N : Names σ) (text : Expr → Str) (W : World)

/-- The expressions for which the guess is claimed to be right. What is left out is what the analysis gets wrong: sums of
truth values, products whose type is that of the right factor, floor division and remainders of floats, powers of
integers, `and` and `or` of values that are no truth values, and operations of which one operand's type is not known. -/
def Safe : Expr → σ → Prop
  | .const _, _ => True
  | .name _, _ => True
  | .unary op e, s =>
    match op with
    | .pos | .neg => Safe e s ∧ ¬ HasTy W e (some .bool)
    | .not => True
    | .invert => ¬ HasTy W e none
  | .bin op l r, s =>
    match op with
    | .add =>
      Safe l s ∧ Safe r (typesOf N text l s).2 ∧ (typesOf N text l s).1.Known ∧
        (typesOf N text r (typesOf N text l s).2).1.Known ∧ ¬ (HasTy W l (some .bool) ∧ HasTy W r (some .bool))
    | .sub | .bitand | .bitor | .bitxor =>
      Safe l s ∧ Safe r (typesOf N text l s).2 ∧ (typesOf N text l s).1.Single ∧
        (typesOf N text r (typesOf N text l s).2).1.Single
    | .mul =>
      Safe l s ∧ ¬ HasTy W l (some .bool) ∧ ¬ HasTy W r none ∧
        (HasTy W l (some .int) → ∀ b, HasTy W r b → b.IntLike)
    | .div | .lshift | .rshift => ¬ HasTy W l none ∧ ¬ HasTy W r none
    | .floordiv => (∀ a, HasTy W l a → a.IntLike) ∧ (∀ b, HasTy W r b → b.IntLike)
    | .mod =>
      Safe l s ∧ Safe r (typesOf N text l s).2 ∧ (typesOf N text l s).1.Single ∧
        (typesOf N text r (typesOf N text l s).2).1.Single ∧ 
        ((∀ a, HasTy W l a → a = some .string) ∨
          ((∀ a, HasTy W l a → a.IntLike) ∧ (∀ b, HasTy W r b → b.IntLike)))
    | .pow =>
      Safe l s ∧ (typesOf N text l s).1.Known ∧ (∀ a, HasTy W l a → a = some .float) ∧
        (∀ b, HasTy W r b → b.IntLike)
    | .matmul => True
  | .boolOp _ es, _ => ∀ τ, AnyTy W es τ → τ = some .bool
  | .compare e rest, _ => ¬ HasTy W e none ∧ ¬ AnyTyOps W rest none
  | .ifExp _ a b, s =>
    Safe a s ∧ Safe b (typesOf N text a s).2 ∧ (typesOf N text a s).1.Known ∧
      (typesOf N text b (typesOf N text a s).2).1.Known
  | .subscript _ _, _ => True
  | .attr _ _, _ => True
  | .call f args, s =>
    match f with
    | .name x => (∀ as, ArgTys W args as → builtinSafe x as) ∧ ∀ m g, W.imported x = some (m, g) → g = x
    | .attr e a =>
      Safe e s ∧ a ≠ "partition".toList ∧ a ≠ "rpartition".toList ∧
        (HasTy W e (some .module) → W.moduleOf e = some (text e))
    | _ => True
  | .other tag _, _ =>
    tag ∈ ["Tuple".toList, "List".toList, "ListComp".toList, "Dict".toList, "DictComp".toList, "Set".toList,
      "SetComp".toList, "Lambda".toList, "Starred".toList]

/-- The guesses the analysis has for names are right: those for a variable cover its values whenever it is asked, a name
taken to be a built-in function is one, and an imported name is one. -/
structure Names.Right : Prop where
  denotes : ∀ s x, ∃ S, Denotes (N.types s x).1 S
  var : ∀ s x τ, W.var x τ → (N.types s x).1.Known → ∃ t, τ = some t ∧ (N.types s x).1.has t = true
  builtin : ∀ x, N.isBuiltin x = true → W.builtin x
  imported : ∀ x m, N.isBuiltin x = false → N.module x = some m → ¬ W.builtin x ∧ ∃ g, W.imported x = some (m, g)

theorem lookup_pair_mem {x : Str} {v : Types} : ∀ {table : List (Str × Types)}, table.lookup x = some v →
    (x, v) ∈ table
  | [], h => by simp at h
  | (k, w) :: rest, h => by
    rw [List.lookup_cons] at h
    by_cases hk : x = k
    · subst hk
      simp only [beq_self_eq_true] at h
      cases h
      exact List.mem_cons_self
    · rw [beq_eq_false_iff_ne.2 hk] at h
      exact List.mem_cons_of_mem _ (lookup_pair_mem h)

theorem typesAt_denotes {table : List (Str × Types)} (h : ∀ p ∈ table, ∃ S, Denotes p.2 S) (x : Str) :
    ∃ S, Denotes (typesAt table x) S := by
  unfold typesAt
  cases hl : table.lookup x with
  | none => exact ⟨_, .empty⟩
  | some v => exact h _ (lookup_pair_mem hl)

theorem typesAt_known {table : List (Str × Types)} {x : Str} (h : (typesAt table x).Known) :
    (x, typesAt table x) ∈ table := by
  unfold typesAt at h ⊢
  cases hl : table.lookup x with
  | none =>
    rw [hl] at h
    obtain ⟨t, ht⟩ := h
    simp [has_empty] at ht
  | some v => exact lookup_pair_mem hl

theorem builtin_right : ∀ p ∈ builtinTypes, ∀ args τ, builtinSafe p.1 args → builtinTy p.1 args τ →
    ∃ t, τ = some t ∧ p.2.has t = true := by
  simp only [builtinTypes, List.forall_mem_cons]
  refine ⟨?abs, ?_, ?_, ?_, ?_, ?_, ?_, ?_, ?_, ?divmod, ?_, ?_, ?_, ?_, ?_, ?_, ?_, ?_, ?_, ?_, ?pow, ?_, ?round, ?_, ?_,
    ?_, ?sum, ?_, by simp⟩
  case abs => 
    rintro args τ ⟨h, _⟩ hb
    have h := h rfl
    simp (decide := true) only [builtinTy, if_true, if_false] at hb
    obtain ⟨a, rfl, hb⟩ := hb
    have ha := h a List.mem_cons_self
    rcases hb with rfl | ⟨_, hb⟩ | ⟨rfl, _⟩
    · rcases ha with h | h <;> cases h
    · exact ⟨_, hb, by decide⟩
    · rcases ha with h | h <;> cases h
  case divmod =>
    rintro args τ ⟨_, _, h, _⟩ hb
    have h := h rfl
    simp (decide := true) only [builtinTy, if_true, if_false] at hb
    exact ⟨_, hb.resolve_left h, by decide⟩
  case pow =>
    rintro args τ ⟨_, _, _, h, _⟩ hb
    have h := h rfl
    simp (decide := true) only [builtinTy, if_true, if_false] at hb
    have hn : none ∉ args := fun hm => by rcases h _ hm with h | h <;> cases h
    rcases hb.resolve_left hn with ⟨a, b, rfl, hr⟩ | ⟨a, b, c, rfl, hr⟩
    · have ha := h a (by simp)
      have hb' := h b (by simp)
      rcases hr with rfl | rfl | ⟨_, _, hr⟩ | ⟨rfl, _⟩ | ⟨_, rfl, _⟩
      · rcases ha with h | h <;> cases h
      · rcases hb' with h | h <;> cases h
      · rcases hr with hr | hr <;> exact ⟨_, hr, by decide⟩
      · rcases ha with h | h <;> cases h
      · rcases hb' with h | h <;> cases h
    · exact ⟨_, hr, by decide⟩
  case round =>
    rintro args τ ⟨_, h, _⟩ hb
    obtain ⟨hn, h⟩ := h rfl
    simp (decide := true) only [builtinTy, if_true, if_false] at hb
    rcases hb.resolve_left hn with ⟨a, rfl, _, hr⟩ | ⟨a, b, rfl, hr⟩
    · exact ⟨_, hr, by decide⟩
    · have ha := (h.resolve_left (by simp)) a (by simp)
      rcases hr with ⟨_, hr⟩ | ⟨rfl, _⟩
      · exact ⟨_, hr, by decide⟩
      · rcases ha with h | h <;> cases h
  case sum => exact fun args τ h _ => absurd rfl h.2.2.2.2
  all_goals
    intro args τ _ hb
    simp (decide := true) only [builtinTy, if_true, if_false] at hb
    exact ⟨_, hb, by decide⟩

theorem method_right : ∀ p ∈ methodTypes, ∀ τ, p.1 ≠ "partition".toList → p.1 ≠ "rpartition".toList →
    stringMethodTy p.1 τ → ∃ t, τ = some t ∧ p.2.has t = true := by
  simp only [methodTypes, List.forall_mem_cons]
  repeat' apply And.intro
  all_goals first
    | exact fun p hp => absurd hp List.not_mem_nil
    | (intro τ h1 h2 hb
       simp (decide := true) only [stringMethodTy, if_true, if_false] at hb
       first | exact ⟨_, hb, by decide⟩ | exact absurd rfl h1 | exact absurd rfl h2)
    | (intro τ h1 h2 hb
       simp (decide := true) only [stringMethodTy, if_false] at hb)

theorem module_right {m f : Str} {τ : RTy} (h : (typesAt (moduleTypes m) f).Known) (hm : moduleTy m f τ) :
    ∃ t, τ = some t ∧ (typesAt (moduleTypes m) f).has t = true := by
  have hk := typesAt_known h
  unfold moduleTypes at hk
  by_cases hmath : m = "math".toList
  · rw [if_pos hmath] at hk
    subst hmath
    have : ∀ p ∈ moduleTypes "math".toList, ∀ τ, moduleTy "math".toList p.1 τ → ∃ t, τ = some t ∧ p.2.has t = true := by
      simp only [moduleTypes, if_true, List.forall_mem_cons]
      repeat' apply And.intro
      all_goals first
        | exact fun p hp => absurd hp List.not_mem_nil
        | (intro τ hb
           simp (decide := true) only [moduleTy, if_true, if_false] at hb
           exact ⟨_, hb, by decide⟩)
    exact this _ hk _ hm
  · rw [if_neg hmath] at hk
    cases hk

theorem builtin_denotes (x : Str) : ∃ S, Denotes (typesAt builtinTypes x) S := by
  refine typesAt_denotes ?_ x
  simp only [builtinTypes, List.forall_mem_cons]
  repeat' apply And.intro
  all_goals first
    | exact fun p hp => absurd hp List.not_mem_nil
    | exact ⟨_, .of _⟩
    | exact ⟨_, .or (.of _) (.of _)⟩

theorem method_denotes (x : Str) : ∃ S, Denotes (typesAt methodTypes x) S := by
  refine typesAt_denotes ?_ x
  simp only [methodTypes, List.forall_mem_cons]
  repeat' apply And.intro
  all_goals first
    | exact fun p hp => absurd hp List.not_mem_nil
    | exact ⟨_, .of _⟩

theorem module_denotes (m x : Str) : ∃ S, Denotes (typesAt (moduleTypes m) x) S := by
  refine typesAt_denotes ?_ x
  unfold moduleTypes
  by_cases hm : m = "math".toList
  · rw [if_pos hm]
    simp only [List.forall_mem_cons]
    repeat' apply And.intro
    all_goals first
      | exact fun p hp => absurd hp List.not_mem_nil
      | exact ⟨_, .of _⟩
  · rw [if_neg hm]
    exact fun p hp => absurd hp List.not_mem_nil

theorem ite_denotes {p : Prop} [Decidable p] {a b : Types} (ha : ∃ S, Denotes a S) (hb : ∃ S, Denotes b S) :
    ∃ S, Denotes (if p then a else b) S := by
  by_cases h : p
  · rw [if_pos h]; exact ha
  · rw [if_neg h]; exact hb

theorem binTypes_denotes (op : BinOp) {l r : Types} (hl : ∃ S, Denotes l S) (hr : ∃ S, Denotes r S) :
    ∃ S, Denotes (binTypes op l r) S := by
  have hor : ∃ S, Denotes (l ||| r) S := by
    obtain ⟨L, hl⟩ := hl; obtain ⟨R, hr⟩ := hr; exact ⟨_, hl.or hr⟩
  unfold binTypes
  cases op <;> first | exact hor | exact ite_denotes ⟨_, .of _⟩ (ite_denotes ⟨_, .of _⟩ (ite_denotes ⟨_, .of _⟩ ⟨_, .empty⟩))

theorem methodCall_denotes (t : Str) (g : Types) (a : Str) : ∃ S, Denotes (methodCall t g a) S := by
  unfold methodCall
  by_cases h : g.len ≠ 1
  · rw [if_pos h]; exact ⟨_, .empty⟩
  · rw [if_neg h]
    cases g.get with
    | nil => exact ⟨_, .empty⟩
    | cons t ts => cases t <;> first | exact ⟨_, .empty⟩ | exact method_denotes _ | exact module_denotes _ _

theorem display_denotes {tag : Str} {t : Types} (h : displayTypes tag = some t) : ∃ S, Denotes t S := by
  unfold displayTypes at h
  by_cases h1 : tag = "Tuple".toList
  · rw [if_pos h1] at h; cases h; exact ⟨_, .of _⟩
  rw [if_neg h1] at h
  by_cases h2 : tag = "List".toList ∨ tag = "ListComp".toList
  · rw [if_pos h2] at h; cases h; exact ⟨_, .of _⟩
  rw [if_neg h2] at h
  by_cases h3 : tag = "Dict".toList ∨ tag = "DictComp".toList
  · rw [if_pos h3] at h; cases h; exact ⟨_, .of _⟩
  rw [if_neg h3] at h
  by_cases h4 : tag = "Set".toList ∨ tag = "SetComp".toList
  · rw [if_pos h4] at h; cases h; exact ⟨_, .of _⟩
  rw [if_neg h4] at h
  by_cases h5 : tag = "Lambda".toList ∨ tag = "Starred".toList
  · rw [if_pos h5] at h; cases h; exact ⟨_, .empty⟩
  rw [if_neg h5] at h; cases h

mutual
theorem typesOf_denotes (hN : ∀ s x, ∃ S, Denotes (N.types s x).1 S) :
    ∀ (e : Expr) (s : σ), ∃ S, Denotes (typesOf N text e s).1 S
  | .const v, s => by
    cases v <;> first | exact ⟨_, .of _⟩ | exact ⟨_, .empty⟩
  | .name x, s => by
    simp only [typesOf]; exact hN s x
  | .unary op e, s => by
    cases op <;> simp only [typesOf] <;> first | exact ⟨_, .of _⟩ | exact typesOf_denotes hN e s
  | .bin op l r, s => by
    have hl := typesOf_denotes hN l
    have hr := typesOf_denotes hN r
    have hmp : ∀ first s', ∃ S, Denotes (modPow first (typesOf N text l) (typesOf N text r) s').1 S := by
      intro first s'
      unfold modPow
      split
      · exact ⟨_, .of _⟩
      · split
        · exact ⟨_, .of _⟩
        · exact ⟨_, .empty⟩
    cases op <;> simp only [typesOf] <;>
      first
      | exact ⟨_, .of _⟩
      | exact ⟨_, .empty⟩
      | exact binTypes_denotes _ (hl _) (hr _)
      | exact hl _
      | exact hmp _ _
  | .boolOp _ _, s => by simp only [typesOf]; exact ⟨_, .of _⟩
  | .compare _ _, s => by simp only [typesOf]; exact ⟨_, .of _⟩
  | .ifExp _ a b, s => by
    simp only [typesOf]
    obtain ⟨A, ha⟩ := typesOf_denotes hN a s
    obtain ⟨B, hb⟩ := typesOf_denotes hN b (typesOf N text a s).2
    exact ⟨_, ha.or hb⟩
  | .subscript _ _, s => by simp only [typesOf]; exact ⟨_, .empty⟩
  | .attr _ _, s => by simp only [typesOf]; exact ⟨_, .empty⟩
  | .call f args, s => by
    cases f with
    | name x =>
      simp only [typesOf]
      by_cases hb : N.isBuiltin x = true
      · rw [if_pos hb]; exact builtin_denotes x
      · rw [if_neg hb]
        cases N.module x with
        | none => exact ⟨_, .empty⟩
        | some m => exact module_denotes m x
    | attr e a => simp only [typesOf]; exact methodCall_denotes _ _ _
    | _ => simp only [typesOf]; exact ⟨_, .empty⟩
  | .other tag es, s => by
    simp only [typesOf]
    cases h : displayTypes tag with
    | some t => exact display_denotes h
    | none => exact typesOfAll_denotes hN es s

theorem typesOfAll_denotes (hN : ∀ s x, ∃ S, Denotes (N.types s x).1 S) :
    ∀ (es : List Expr) (s : σ), ∃ S, Denotes (typesOfAll N text es s).1 S
  | [], s => by simp only [typesOfAll]; exact ⟨_, .empty⟩
  | e :: es, s => by
    simp only [typesOfAll]
    obtain ⟨A, ha⟩ := typesOf_denotes hN e s
    obtain ⟨B, hb⟩ := typesOfAll_denotes hN es (typesOf N text e s).2
    exact ⟨_, ha.or hb⟩
end

theorem single_get {g : Types} {S : Finset Ty} (h : Denotes g S) (h1 : g.len = 1) :
    ∃ t, g.get = [t] ∧ ∀ u, g.has u = true ↔ u = t := by
  rw [len_eq h.bits] at h1
  obtain ⟨t, ht⟩ := List.length_eq_one_iff.1 h1
  exact ⟨t, ht, fun u => by rw [← mem_get, ht, List.mem_singleton]⟩

theorem known_or {a b : Types} (h : a.Known) : (a ||| b).Known := by
  obtain ⟨t, ht⟩ := h
  exact ⟨t, by rw [has_or, ht]; rfl⟩

theorem single_known {g : Types} (h : g.Single) : g.Known := by
  obtain ⟨t, ht⟩ := h
  exact ⟨t, (ht t).2 rfl⟩

/-- What a binary operation that looks at single types guesses. -/
theorem binTypes_right {op : BinOp} (hop : op = .sub ∨ op = .bitand ∨ op = .bitor ∨ op = .bitxor) {l r : Types} {a b : Ty}
    {τ : RTy} (hl : ∀ u, l.has u = true ↔ u = a) (hr : ∀ u, r.has u = true ↔ u = b) (hτ : binTy op (some a) (some b) τ)
    (hk : (binTypes op l r).Known) : ∃ t, τ = some t ∧ (binTypes op l r).has t = true := by
  have hl' : ∀ u, l.has u = decide (u = a) := fun u => by rw [Bool.eq_iff_iff, hl, decide_eq_true_eq]
  have hr' : ∀ u, r.has u = decide (u = b) := fun u => by rw [Bool.eq_iff_iff, hr, decide_eq_true_eq]
  rcases hop with rfl | rfl | rfl | rfl <;>
  · simp only [binTypes, has_or, has_and, hl', hr'] at hk ⊢
    simp only [binTy, arith, RTy.IntLike, RTy.Numeric, reduceCtorEq, Option.some.injEq, false_or] at hτ
    cases a <;> cases b <;> simp_all [has_of, has_empty, Types.Known]

theorem single_eq {g : Types} (h : g.Single) {τ : RTy} (hτ : ∃ t, τ = some t ∧ g.has t = true) :
    ∃ t, τ = some t ∧ ∀ u, g.has u = true ↔ u = t := by
  obtain ⟨t, ht⟩ := h
  obtain ⟨u, rfl, hu⟩ := hτ
  rw [ht] at hu
  subst hu
  exact ⟨_, rfl, ht⟩

theorem has_intLike {g : Types} {a : RTy} (ha : a.IntLike) (h : ∃ t, a = some t ∧ g.has t = true) :
    (a = some .int ∧ g.has .int = true) ∨ (a = some .bool ∧ g.has .bool = true) := by
  obtain ⟨t, rfl, ht⟩ := h
  rcases ha with h | h <;> cases h
  · exact .inl ⟨rfl, ht⟩
  · exact .inr ⟨rfl, ht⟩

variable {N text W}

theorem typesOf_right (hN : N.Right W) : ∀ (e : Expr) (s : σ) (τ : RTy), Safe N text W e s → HasTy W e τ →
    (typesOf N text e s).1.Known → ∃ t, τ = some t ∧ (typesOf N text e s).1.has t = true
  | .const v, s, τ, _, ht, hk => by
    simp only [HasTy] at ht
    subst ht
    cases v <;> simp only [typesOf, litTypes, litTy] at hk ⊢ <;>
      first
      | exact ⟨_, rfl, has_self _⟩
      | (obtain ⟨t, ht⟩ := hk; rw [has_empty] at ht; cases ht)
  | .name x, s, τ, _, ht, hk => by
    simp only [HasTy] at ht
    simp only [typesOf] at hk ⊢
    exact hN.var s x τ ht hk
  | .unary op e, s, τ, hs, ht, hk => by
    simp only [HasTy] at ht
    obtain ⟨a, ha, ht⟩ := ht
    have hpn : ∀ (hs : Safe N text W e s ∧ ¬ HasTy W e (some .bool)) (hk : (typesOf N text e s).1.Known)
        (ht : a = none ∨ (a.IntLike ∧ τ = some .int) ∨ (a = some .float ∧ τ = some .float)),
        ∃ t, τ = some t ∧ (typesOf N text e s).1.has t = true := by
      intro hs hk ht
      obtain ⟨u, rfl, hu⟩ := typesOf_right hN e s a hs.1 ha hk
      rcases ht with h | ⟨h, rfl⟩ | ⟨h, rfl⟩
      · cases h
      · rcases h with h | h
        · cases h; exact ⟨_, rfl, hu⟩
        · cases h; exact absurd ha hs.2
      · cases h; exact ⟨_, rfl, hu⟩
    cases op <;> simp only [typesOf, Safe, unTy] at hs hk ht ⊢
    · exact hpn hs hk ht
    · exact hpn hs hk ht
    · exact ⟨_, ht, has_self _⟩
    · rcases ht with rfl | ⟨_, ht⟩
      · exact absurd ha hs
      · exact ⟨_, ht, has_self _⟩
  | .bin op l r, s, τ, hs, ht, hk => by
    simp only [HasTy] at ht
    obtain ⟨a, b, ha, hb, ht⟩ := ht
    have hsingle : ∀ (hop : op = .sub ∨ op = .bitand ∨ op = .bitor ∨ op = .bitxor)
        (hs : Safe N text W l s ∧ Safe N text W r (typesOf N text l s).2 ∧ (typesOf N text l s).1.Single ∧
          (typesOf N text r (typesOf N text l s).2).1.Single)
        (hk : (binTypes op (typesOf N text l s).1 (typesOf N text r (typesOf N text l s).2).1).Known),
        ∃ t, τ = some t ∧
          (binTypes op (typesOf N text l s).1 (typesOf N text r (typesOf N text l s).2).1).has t = true := by
      intro hop hs hk
      obtain ⟨u, rfl, hu⟩ := single_eq hs.2.2.1 (typesOf_right hN l s a hs.1 ha (single_known hs.2.2.1))
      obtain ⟨v, rfl, hv⟩ := single_eq hs.2.2.2 (typesOf_right hN r _ b hs.2.1 hb (single_known hs.2.2.2))
      exact binTypes_right hop hu hv ht hk
    cases op with
    | add =>
      simp only [typesOf, Safe] at hs hk ⊢
      obtain ⟨hsl, hsr, hkl, hkr, hnb⟩ := hs
      obtain ⟨u, rfl, hu⟩ := typesOf_right hN l s a hsl ha hkl
      obtain ⟨v, rfl, hv⟩ := typesOf_right hN r _ b hsr hb hkr
      simp only [binTy, reduceCtorEq, false_or, arith, RTy.IntLike, RTy.Numeric, RTy.Seq, Option.some.injEq] at ht
      simp only [binTypes, has_or]
      rcases ht with (⟨h1, h2, rfl⟩ | ⟨_, _, h, rfl⟩) | ⟨_, _, rfl⟩
      · refine ⟨_, rfl, ?_⟩
        rcases h1 with rfl | rfl
        · rw [hu]; rfl
        · rcases h2 with rfl | rfl
          · rw [hv, Bool.or_true]
          · exact absurd ⟨ha, hb⟩ hnb
      · refine ⟨_, rfl, ?_⟩
        rcases h with rfl | rfl
        · rw [hu]; rfl
        · rw [hv, Bool.or_true]
      · exact ⟨_, rfl, by rw [hu]; rfl⟩
    | sub => simp only [typesOf, Safe] at hs hk ⊢; exact hsingle (by simp) hs hk
    | bitand => simp only [typesOf, Safe] at hs hk ⊢; exact hsingle (by simp) hs hk
    | bitor => simp only [typesOf, Safe] at hs hk ⊢; exact hsingle (by simp) hs hk
    | bitxor => simp only [typesOf, Safe] at hs hk ⊢; exact hsingle (by simp) hs hk
    | mul =>
      simp only [typesOf, Safe] at hs hk ⊢
      obtain ⟨hsl, hnb, hnn, hint⟩ := hs
      obtain ⟨u, rfl, hu⟩ := typesOf_right hN l s a hsl ha hk
      rcases ht with h | rfl | ht
      · cases h
      · exact absurd hb hnn
      · rcases ht with (⟨h1, _, rfl⟩ | ⟨h1, _, hf, rfl⟩) | ⟨_, _, rfl⟩ | ⟨h1, h2, rfl⟩
        · rcases h1 with h | h
          · cases h; exact ⟨_, rfl, hu⟩
          · cases h; exact absurd ha hnb
        · rcases h1 with (h | h) | h
          · cases h
            rcases hf with h | rfl
            · cases h
            · rcases hint ha _ hb with h | h <;> cases h
          · cases h; exact absurd ha hnb
          · cases h; exact ⟨_, rfl, hu⟩
        · exact ⟨_, rfl, hu⟩
        · rcases h1 with h | h
          · cases h
            have := hint ha _ hb
            rcases h2 with rfl | rfl | rfl <;> rcases this with h | h <;> cases h
          · cases h; exact absurd ha hnb
    | div =>
      simp only [typesOf, Safe] at hs hk ⊢
      rcases ht with rfl | rfl | ⟨_, _, ht⟩
      · exact absurd ha hs.1
      · exact absurd hb hs.2
      · exact ⟨_, ht, has_self _⟩
    | lshift =>
      simp only [typesOf, Safe] at hs hk ⊢
      rcases ht with rfl | rfl | ⟨_, _, ht⟩
      · exact absurd ha hs.1
      · exact absurd hb hs.2
      · exact ⟨_, ht, has_self _⟩
    | rshift =>
      simp only [typesOf, Safe] at hs hk ⊢
      rcases ht with rfl | rfl | ⟨_, _, ht⟩
      · exact absurd ha hs.1
      · exact absurd hb hs.2
      · exact ⟨_, ht, has_self _⟩
    | floordiv =>
      simp only [typesOf, Safe] at hs hk ⊢
      have h1 := hs.1 a ha
      have h2 := hs.2 b hb
      rcases ht with rfl | rfl | ht
      · rcases h1 with h | h <;> cases h
      · rcases h2 with h | h <;> cases h
      · rcases ht with ⟨_, _, ht⟩ | ⟨_, _, hf, _⟩
        · exact ⟨_, ht, has_self _⟩
        · rcases hf with rfl | rfl
          · rcases h1 with h | h <;> cases h
          · rcases h2 with h | h <;> cases h
    | matmul =>
      simp only [typesOf] at hk
      obtain ⟨t, h⟩ := hk; rw [has_empty] at h; cases h
    | mod =>
      simp only [typesOf, Safe] at hs hk ⊢
      obtain ⟨hsl, hsr, hkl, hkr, hc⟩ := hs
      obtain ⟨u, rfl, hu⟩ := single_eq hkl (typesOf_right hN l s a hsl ha (single_known hkl))
      obtain ⟨v, rfl, hv⟩ := single_eq hkr (typesOf_right hN r _ b hsr hb (single_known hkr))
      unfold modPow at hk ⊢
      rw [has_or] at hk ⊢
      rcases hc with hc | hc
      · have := hc _ ha
        cases this
        rw [(hu _).2 rfl, Bool.true_or, if_pos rfl]
        rcases ht with h | h | ht
        · cases h
        · cases h
        · rcases ht with (⟨h, _⟩ | ⟨(h | h) | h, _⟩) | ⟨_, ht⟩
          · rcases h with h | h <;> cases h
          · cases h
          · cases h
          · cases h
          · exact ⟨_, ht, has_self _⟩
      · have h1 := hc.1 _ ha
        have h2 := hc.2 _ hb
        have n1 : (typesOf N text l s).1.has .string = false := by
          rw [Bool.eq_false_iff]
          intro h
          rw [hu] at h
          subst h
          rcases h1 with h | h <;> cases h
        have n2 : (typesOf N text r (typesOf N text l s).2).1.has .string = false := by
          rw [Bool.eq_false_iff]
          intro h
          rw [hv] at h
          subst h
          rcases h2 with h | h <;> cases h
        rw [n1, n2] at hk ⊢
        simp only [Bool.or_self, Bool.false_eq_true, if_false] at hk ⊢
        have hτ : τ = some .int := by
          rcases ht with h | h | ht
          · cases h
          · cases h
          · rcases ht with (⟨_, _, ht⟩ | ⟨_, _, hf, _⟩) | ⟨h, _⟩
            · exact ht
            · rcases hf with h | h <;> cases h
              · rcases h1 with h | h <;> cases h
              · rcases h2 with h | h <;> cases h
            · cases h; rcases h1 with h | h <;> cases h
        refine ⟨_, hτ, ?_⟩
        split
        · exact has_self _
        · rename_i h
          rw [if_neg h] at hk
          obtain ⟨t, h⟩ := hk; rw [has_empty] at h; cases h
    | pow =>
      simp only [typesOf, Safe] at hs hk ⊢
      obtain ⟨hsl, hkl, hf, hi⟩ := hs
      obtain ⟨u, rfl, hu⟩ := typesOf_right hN l s a hsl ha hkl
      have := hf _ ha
      cases this
      have h2 := hi _ hb
      unfold modPow at hk ⊢
      rw [has_or, hu, Bool.true_or, if_pos rfl]
      refine ⟨.float, ?_, has_self _⟩
      rcases ht with h | rfl | ht
      · cases h
      · rcases h2 with h | h <;> cases h
      · rcases ht with ⟨h, _⟩ | ⟨_, _, ht⟩ | ⟨_, rfl, _⟩
        · rcases h with h | h <;> cases h
        · exact ht
        · rcases h2 with h | h <;> cases h
  | .boolOp _ es, s, τ, hs, ht, hk => by
    simp only [HasTy] at ht
    simp only [Safe] at hs
    simp only [typesOf]
    exact ⟨_, hs τ ht, has_self _⟩
  | .compare e rest, s, τ, hs, ht, hk => by
    simp only [HasTy] at ht
    simp only [Safe] at hs
    simp only [typesOf]
    rcases ht with ht | ht | ht
    · exact ⟨_, ht, has_self _⟩
    · exact absurd ht hs.1
    · exact absurd ht hs.2
  | .ifExp _ x y, s, τ, hs, ht, hk => by
    simp only [HasTy] at ht
    simp only [Safe] at hs
    simp only [typesOf, has_or]
    obtain ⟨hsx, hsy, hkx, hky⟩ := hs
    rcases ht with ht | ht
    · obtain ⟨u, hu, h⟩ := typesOf_right hN x s τ hsx ht hkx
      exact ⟨u, hu, by rw [h]; rfl⟩
    · obtain ⟨u, hu, h⟩ := typesOf_right hN y _ τ hsy ht hky
      exact ⟨u, hu, by rw [h, Bool.or_true]⟩
  | .subscript _ _, s, τ, _, _, hk => by
    simp only [typesOf] at hk
    obtain ⟨t, h⟩ := hk; rw [has_empty] at h; cases h
  | .attr _ _, s, τ, _, _, hk => by
    simp only [typesOf] at hk
    obtain ⟨t, h⟩ := hk; rw [has_empty] at h; cases h
  | .call (.name x) args, s, τ, hs, ht, hk => by
    simp only [HasTy] at ht
    simp only [Safe] at hs
    simp only [typesOf] at hk ⊢
    by_cases hb : N.isBuiltin x = true
    · rw [if_pos hb] at hk ⊢
      rcases ht with ⟨_, as, has, ht⟩ | ⟨h, _⟩
      · exact builtin_right _ (typesAt_known hk) as τ (hs.1 as has) ht
      · exact absurd (hN.builtin x hb) h
    · rw [if_neg hb] at hk ⊢
      cases hm : N.module x with
      | none =>
        rw [hm] at hk
        obtain ⟨t, h⟩ := hk; rw [has_empty] at h; cases h
      | some m =>
        rw [hm] at hk
        obtain ⟨hnb, g, hg⟩ := hN.imported x m (by simpa using hb) hm
        rcases ht with ⟨h, _⟩ | ⟨_, ht⟩
        · exact absurd h hnb
        · have := hs.2 m g hg
          subst this
          exact module_right hk (ht m g hg)
  | .call (.attr e a) args, s, τ, hs, ht, hk => by
    simp only [HasTy] at ht
    simp only [Safe] at hs
    simp only [typesOf] at hk ⊢
    obtain ⟨hse, hp, hrp, hmod⟩ := hs
    obtain ⟨b, hb, hstr, hmd⟩ := ht
    unfold methodCall at hk ⊢
    by_cases hlen : (typesOf N text e s).1.len ≠ 1
    · rw [if_pos hlen] at hk
      obtain ⟨t, h⟩ := hk; rw [has_empty] at h; cases h
    · rw [if_neg hlen] at hk ⊢
      obtain ⟨S, hS⟩ := typesOf_denotes N text hN.denotes e s
      obtain ⟨u, hg, hu⟩ := single_get hS (by simpa using hlen)
      obtain ⟨v, rfl, hv⟩ := typesOf_right hN e s b hse hb ⟨u, (hu u).2 rfl⟩
      rw [hu] at hv
      subst hv
      rw [hg] at hk ⊢
      cases v with
      | string => exact method_right _ (typesAt_known hk) τ hp hrp (hstr rfl)
      | module => exact module_right hk (hmd rfl _ (hmod hb))
      | _ => obtain ⟨t, h⟩ := hk; simp only [has_empty] at h; cases h
  | .call (.const _) _, s, τ, _, _, hk => by
    simp only [typesOf] at hk
    obtain ⟨t, h⟩ := hk; rw [has_empty] at h; cases h
  | .call (.unary _ _) _, s, τ, _, _, hk => by
    simp only [typesOf] at hk
    obtain ⟨t, h⟩ := hk; rw [has_empty] at h; cases h
  | .call (.bin _ _ _) _, s, τ, _, _, hk => by
    simp only [typesOf] at hk
    obtain ⟨t, h⟩ := hk; rw [has_empty] at h; cases h
  | .call (.boolOp _ _) _, s, τ, _, _, hk => by
    simp only [typesOf] at hk
    obtain ⟨t, h⟩ := hk; rw [has_empty] at h; cases h
  | .call (.compare _ _) _, s, τ, _, _, hk => by
    simp only [typesOf] at hk
    obtain ⟨t, h⟩ := hk; rw [has_empty] at h; cases h
  | .call (.call _ _) _, s, τ, _, _, hk => by
    simp only [typesOf] at hk
    obtain ⟨t, h⟩ := hk; rw [has_empty] at h; cases h
  | .call (.subscript _ _) _, s, τ, _, _, hk => by
    simp only [typesOf] at hk
    obtain ⟨t, h⟩ := hk; rw [has_empty] at h; cases h
  | .call (.ifExp _ _ _) _, s, τ, _, _, hk => by
    simp only [typesOf] at hk
    obtain ⟨t, h⟩ := hk; rw [has_empty] at h; cases h
  | .call (.other _ _) _, s, τ, _, _, hk => by
    simp only [typesOf] at hk
    obtain ⟨t, h⟩ := hk; rw [has_empty] at h; cases h
  | .other tag es, s, τ, hs, ht, hk => by
    simp only [HasTy] at ht
    simp only [Safe] at hs
    simp only [typesOf] at hk ⊢
    simp only [List.mem_cons, List.not_mem_nil, or_false] at hs
    have e1 : displayTypes "Tuple".toList = some (.of .tuple) := by decide
    have e2 : displayTypes "List".toList = some (.of .list) := by decide
    have e3 : displayTypes "ListComp".toList = some (.of .list) := by decide
    have e4 : displayTypes "Dict".toList = some (.of .dict) := by decide
    have e5 : displayTypes "DictComp".toList = some (.of .dict) := by decide
    have e6 : displayTypes "Set".toList = some (.of .set) := by decide
    have e7 : displayTypes "SetComp".toList = some (.of .set) := by decide
    have e8 : displayTypes "Lambda".toList = some .empty := by decide
    have e9 : displayTypes "Starred".toList = some .empty := by decide
    have hemp : Types.Known .empty → False := fun ⟨t, h⟩ => by rw [has_empty] at h; cases h
    rcases hs with rfl | rfl | rfl | rfl | rfl | rfl | rfl | rfl | rfl
    · rw [e1]; simp (decide := true) only [displayTy, if_true, if_false] at ht; exact ⟨_, ht, has_self _⟩
    · rw [e2]; simp (decide := true) only [displayTy, if_true, if_false] at ht; exact ⟨_, ht, has_self _⟩
    · rw [e3]; simp (decide := true) only [displayTy, if_true, if_false] at ht; exact ⟨_, ht, has_self _⟩
    · rw [e4]; simp (decide := true) only [displayTy, if_true, if_false] at ht; exact ⟨_, ht, has_self _⟩
    · rw [e5]; simp (decide := true) only [displayTy, if_true, if_false] at ht; exact ⟨_, ht, has_self _⟩
    · rw [e6]; simp (decide := true) only [displayTy, if_true, if_false] at ht; exact ⟨_, ht, has_self _⟩
    · rw [e7]; simp (decide := true) only [displayTy, if_true, if_false] at ht; exact ⟨_, ht, has_self _⟩
    · rw [e8] at hk; exact (hemp hk).elim
    · rw [e9] at hk; exact (hemp hk).elim

/-- C42 for the expressions of `Safe`: the type of a value an expression may have is among the types guessed. -/
theorem C42_partial (hN : N.Right W) {s : σ} {e : Expr} {g : Types} (hs : Safe N text W e s)
    (hg : guessType N text s e = some g) {τ : RTy} (hτ : HasTy W e τ) : ∃ t, τ = some t ∧ g.has t = true := by
  unfold guessType at hg
  by_cases hlen : (typesOf N text e s).1.len > 0
  · rw [if_pos hlen] at hg
    cases hg
    obtain ⟨S, hS⟩ := typesOf_denotes N text hN.denotes e s
    refine typesOf_right hN e s τ hs hτ ?_
    rw [len_eq hS.bits] at hlen
    obtain ⟨t, ht⟩ := List.exists_mem_of_length_pos hlen
    exact ⟨t, (mem_get _ _).1 ht⟩
  · rw [if_neg hlen] at hg; cases hg

end

/-! ### C42: examples, and expressions whose guess is wrong -/

/-- A program without variables whose names are those of built-in functions. -/
def closedNames : Names Unit := ⟨fun s _ => (.empty, s), fun _ => true, fun _ => none⟩
/-- There is no module whose text would matter. -/
def noText : Expr → Str := fun _ => []
def closedWorld : World := ⟨fun _ _ => False, fun _ => True, fun _ => none, fun _ => none⟩

theorem closed_right : closedNames.Right closedWorld where
  denotes _ _ := ⟨_, .empty⟩
  var _ _ _ h := h.elim
  builtin _ _ := trivial
  imported _ _ h := by cases h

/-- `1 * True - len("a")`: an integer. -/
example : ∃ e g, Safe closedNames noText closedWorld e () ∧ guessType closedNames noText () e = some g ∧
    HasTy closedWorld e (some .int) ∧ g = .of .int := by
  refine ⟨.bin .sub (.bin .mul (.const (.int 1)) (.const (.bool true)))
    (.call (.name "len".toList) [.const (.str "a".toList)]), .of .int, ?_, by decide +kernel, ?_, rfl⟩
  · simp only [Safe, HasTy, litTy, true_and]
    refine ⟨⟨by decide, by decide, ?_⟩, ⟨?_, by simp [closedWorld]⟩, ?_, ?_⟩
    · rintro _ b rfl; exact .inr rfl
    · rintro as _
      refine ⟨?_, ?_, ?_, ?_, by decide⟩ <;> intro h <;> exact absurd h (by decide)
    · exact ⟨.int, fun u => by cases u <;> decide +kernel⟩
    · exact ⟨.int, fun u => by cases u <;> decide +kernel⟩
  · simp only [HasTy, litTy]
    refine ⟨some .int, some .int, ⟨_, _, rfl, rfl, .inr (.inr (.inl (.inl ⟨.inl rfl, .inr rfl, rfl⟩)))⟩,
      .inl ⟨trivial, [some .string], ?_, ?_⟩, .inr (.inr (.inl (.inl ⟨.inl rfl, .inl rfl, rfl⟩)))⟩
    · simp only [ArgTys, HasTy, litTy]; exact ⟨_, _, rfl, rfl, rfl⟩
    · simp (decide := true) only [builtinTy, if_true, if_false]

/-- The expression has a value of type `τ`, the analysis guesses that all of its values are of type `t`. -/
def GuessedWrong (e : Expr) (t : Ty) (τ : RTy) : Prop :=
  HasTy closedWorld e τ ∧ guessType closedNames noText () e = some (.of t) ∧ τ ≠ some t

/-- C42 is false: `True + True` is an integer, guessed to be a truth value. -/
theorem C42_add_counterexample :
    GuessedWrong (.bin .add (.const (.bool true)) (.const (.bool true))) .bool (some .int) := by
  refine ⟨?_, by decide +kernel, by decide⟩
  simp only [HasTy, litTy]
  exact ⟨_, _, rfl, rfl, .inr (.inr (.inl (.inl ⟨.inr rfl, .inr rfl, rfl⟩)))⟩

/-- C42 is false: `1 or 2` is an integer, guessed to be a truth value. -/
theorem C42_or_counterexample :
    GuessedWrong (.boolOp true [.const (.int 1), .const (.int 2)]) .bool (some .int) := by
  refine ⟨?_, by decide +kernel, by decide⟩
  simp only [HasTy, AnyTy, litTy]
  exact .inl trivial

/-- C42 is false: `2 * "a"` is a string, guessed to be an integer. -/
theorem C42_mul_counterexample :
    GuessedWrong (.bin .mul (.const (.int 2)) (.const (.str "a".toList))) .int (some .string) := by
  refine ⟨?_, by decide +kernel, by decide⟩
  simp only [HasTy, litTy]
  exact ⟨_, _, rfl, rfl, .inr (.inr (.inr (.inr ⟨.inl rfl, .inl rfl, rfl⟩)))⟩

/-- C42 is false: `1.5 // 1` is a float, guessed to be an integer. -/
theorem C42_floordiv_counterexample :
    GuessedWrong (.bin .floordiv (.const (.float "1.5".toList)) (.const (.int 1))) .int (some .float) := by
  refine ⟨?_, by decide +kernel, by decide⟩
  simp only [HasTy, litTy]
  exact ⟨_, _, rfl, rfl, .inr (.inr (.inr ⟨.inr rfl, .inl (.inl rfl), .inl rfl, rfl⟩))⟩

/-- C42 is false: `7.5 % 2` is a float, guessed to be an integer. -/
theorem C42_mod_counterexample :
    GuessedWrong (.bin .mod (.const (.float "7.5".toList)) (.const (.int 2))) .int (some .float) := by
  refine ⟨?_, by decide +kernel, by decide⟩
  simp only [HasTy, litTy]
  exact ⟨_, _, rfl, rfl, .inr (.inr (.inl (.inr ⟨.inr rfl, .inl (.inl rfl), .inl rfl, rfl⟩)))⟩

/-- C42 is false: `2 ** -1` is a float, guessed to be an integer. -/
theorem C42_pow_counterexample :
    GuessedWrong (.bin .pow (.const (.int 2)) (.unary .neg (.const (.int 1)))) .int (some .float) := by
  refine ⟨?_, by decide +kernel, by decide⟩
  simp only [HasTy, litTy]
  exact ⟨_, _, rfl, ⟨_, rfl, .inr (.inl ⟨.inl rfl, rfl⟩)⟩, .inr (.inr (.inl ⟨.inl rfl, .inl rfl, .inr rfl⟩))⟩

/-- C42 is false: `-True` is an integer, guessed to be a truth value. -/
theorem C42_neg_counterexample : GuessedWrong (.unary .neg (.const (.bool true))) .bool (some .int) := by
  refine ⟨?_, by decide +kernel, by decide⟩
  simp only [HasTy, litTy]
  exact ⟨_, rfl, .inr (.inl ⟨.inr rfl, rfl⟩)⟩

/-- C42 is false: `abs(1.5)` is a float, guessed to be an integer. -/
theorem C42_abs_counterexample :
    GuessedWrong (.call (.name "abs".toList) [.const (.float "1.5".toList)]) .int (some .float) := by
  refine ⟨?_, by decide +kernel, by decide⟩
  simp only [HasTy, ArgTys, litTy]
  refine .inl ⟨trivial, _, ⟨_, _, rfl, rfl, rfl⟩, ?_⟩
  simp (decide := true) only [builtinTy, if_true, if_false]
  exact ⟨_, rfl, .inr (.inr (by simp))⟩

/-- C42 is false: `"a".partition("b")` is a tuple, guessed to be a list. -/
theorem C42_partition_counterexample :
    GuessedWrong (.call (.attr (.const (.str "a".toList)) "partition".toList) [.const (.str "b".toList)]) .list
      (some .tuple) := by
  refine ⟨?_, by decide +kernel, by decide⟩
  simp only [HasTy, litTy]
  refine ⟨_, rfl, fun _ => ?_, fun h => by cases h⟩
  simp (decide := true) [stringMethodTy]

/-- C42 is false: `f"{1}"` is a string, guessed to be an integer. -/
theorem C42_fstring_counterexample :
    GuessedWrong (.other "JoinedStr".toList [.other "FormattedValue".toList [.const (.int 1)]]) .int (some .string) := by
  refine ⟨?_, by decide +kernel, by decide⟩
  simp (decide := true) [HasTy, displayTy]

end Verif.Py
