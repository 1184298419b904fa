import Verif.Model.DupBlocks
import Batteries.Data.List.Perm

/-!
C134: which blocks are reported as duplicate.
-/

namespace Verif.DupBlocks

/-- What is compared of two nodes is the same, but for the replacements in `D`. -/
def Fits (D : Diffs) : Label → Label → Prop
  | .compare os, .compare os' => ∀ p ∈ os.zip os', p.1 = p.2 ∨ p ∈ D
  | .binOp o, .binOp o' => o = o' ∨ (o, o') ∈ D
  | .boolOp o, .boolOp o' => o = o'
  | .name x, .name x' => x = x' ∨ (x, x') ∈ D
  | .const v t, .const v' t' => v = v' ∨ (t, t') ∈ D
  | .attribute a, .attribute a' => a = a' ∨ (a, a') ∈ D
  | .unaryOp o, .unaryOp o' => o = o' ∨ (o, o') ∈ D
  | .other c _, .other c' _ => c = c'
  | _, _ => False

mutual
/-- The trees are of the same shape, and nodes at the same places are the same as far as they are compared, but for the replacements in `D`. -/
def Near (D : Diffs) : Tree → Tree → Prop
  | .node l cs, .node l' cs' => Fits D l l' ∧ NearAll D cs cs'

def NearAll (D : Diffs) : List Tree → List Tree → Prop
  | [], [] => True
  | t :: ts, t' :: ts' => Near D t t' ∧ NearAll D ts ts'
  | _, _ => False
end

theorem add_sub {p : Str × Str} {d : Diffs} : d ⊆ add p d := by
  unfold add
  split
  · exact List.Subset.refl _
  · exact List.subset_cons_self _ _

theorem mem_add {p : Str × Str} {d : Diffs} : p ∈ add p d := by
  unfold add
  split
  · assumption
  · exact List.mem_cons_self

theorem add_nodup {p : Str × Str} {d : Diffs} (h : d.Nodup) : (add p d).Nodup := by
  unfold add
  split
  · exact h
  · exact List.nodup_cons.2 ⟨‹_›, h⟩

theorem add_le {p : Str × Str} {d D : Diffs} (h : d ⊆ D) (hp : p ∈ D) : add p d ⊆ D := by
  unfold add
  split
  · exact h
  · exact List.cons_subset.2 ⟨hp, h⟩

/-- `add` if there is a difference. -/
theorem addIf_ok {a b : Str} {p : Prop} [Decidable p] {d : Diffs} (hd : d.Nodup) :
    d ⊆ (if p then add (a, b) d else d) ∧ (if p then add (a, b) d else d).Nodup ∧ (p → (a, b) ∈ (if p then add (a, b) d else d)) ∧
      ∀ D, d ⊆ D → (p → (a, b) ∈ D) → (if p then add (a, b) d else d) ⊆ D := by
  split
  · exact ⟨add_sub, add_nodup hd, fun _ => mem_add, fun D h h' => add_le h (h' ‹_›)⟩
  · exact ⟨List.Subset.refl _, hd, fun h => absurd h ‹_›, fun D h _ => h⟩

theorem addOps_ok : ∀ {os os' : List Str} {d : Diffs}, d.Nodup → d ⊆ addOps os os' d ∧ (addOps os os' d).Nodup ∧
    (∀ p ∈ os.zip os', p.1 = p.2 ∨ p ∈ addOps os os' d) ∧ ∀ D, d ⊆ D → (∀ p ∈ os.zip os', p.1 = p.2 ∨ p ∈ D) → addOps os os' d ⊆ D
  | [], _, d, hd => ⟨List.Subset.refl _, hd, by simp, fun D h _ => h⟩
  | _ :: _, [], d, hd => ⟨List.Subset.refl _, hd, by simp, fun D h _ => h⟩
  | o :: os, o' :: os', d, hd => by
    obtain ⟨h1, h2, h3, h4⟩ := addIf_ok (a := o) (b := o') (p := o ≠ o') hd
    obtain ⟨i1, i2, i3, i4⟩ := addOps_ok (os := os) (os' := os') h2
    refine ⟨fun x hx => i1 (h1 hx), i2, ?_, fun D h h' => ?_⟩
    · intro p hp
      rw [List.zip_cons_cons] at hp
      rcases List.mem_cons.1 hp with rfl | hp
      · by_cases h : o = o'
        · exact .inl h
        · exact .inr (i1 (h3 h))
      · exact i3 p hp
    · rw [List.zip_cons_cons] at h'
      refine i4 D (h4 D h fun hne => ?_) fun p hp => h' p (List.mem_cons_of_mem _ hp)
      exact (h' _ List.mem_cons_self).resolve_left hne

/-- What `update_diffs` does for nodes of the same class. -/
theorem update_ok {l l' : Label} {d d' : Diffs} (hd : d.Nodup) (hc : sameClass l l' = true) (h : update l l' d = some d') :
    d ⊆ d' ∧ d'.Nodup ∧ Fits d' l l' := by
  cases l <;> cases l' <;> simp only [sameClass, update, Bool.false_eq_true, Option.some.injEq, decide_eq_true_eq] at hc h <;>
    try subst h
  case compare => exact ⟨(addOps_ok hd).1, (addOps_ok hd).2.1, (addOps_ok hd).2.2.1⟩
  case boolOp =>
    split at h
    · simp at h
    · rename_i hne
      cases h
      exact ⟨List.Subset.refl _, hd, by simpa [Fits] using hne⟩
  case other => exact ⟨List.Subset.refl _, hd, hc⟩
  all_goals
    refine ⟨(addIf_ok hd).1, (addIf_ok hd).2.1, ?_⟩
    rw [Fits]
    exact Classical.or_iff_not_imp_left.2 (addIf_ok hd).2.2.1

theorem update_of_fits {D : Diffs} {l l' : Label} {d : Diffs} (hd : d.Nodup) (hD : d ⊆ D) (hf : Fits D l l') :
    sameClass l l' = true ∧ ∃ d', update l l' d = some d' ∧ d' ⊆ D := by
  cases l <;> cases l' <;> simp only [Fits] at hf <;> simp only [sameClass, update, true_and, Option.some.injEq, exists_eq_left', decide_eq_true_eq]
  case compare => exact (addOps_ok hd).2.2.2 D hD hf
  case boolOp => exact ⟨d, by simp [hf], hD⟩
  case other => exact ⟨hf, hD⟩
  all_goals exact (addIf_ok hd).2.2.2 D hD fun hne => hf.resolve_left hne

mutual
theorem near_mono {D D' : Diffs} (h : D ⊆ D') : ∀ (t t' : Tree), Near D t t' → Near D' t t'
  | .node l cs, .node l' cs', hn => by
    rw [Near] at hn ⊢
    refine ⟨?_, nearAll_mono h cs cs' hn.2⟩
    have hf := hn.1
    cases l <;> cases l' <;> simp only [Fits] at hf ⊢
    case compare => exact fun p hp => (hf p hp).imp id fun x => h x
    case boolOp => exact hf
    case other => exact hf
    all_goals exact hf.imp id fun x => h x

theorem nearAll_mono {D D' : Diffs} (h : D ⊆ D') : ∀ (ts ts' : List Tree), NearAll D ts ts' → NearAll D' ts ts'
  | [], [], _ => by rw [NearAll]; trivial
  | t :: ts, t' :: ts', hn => by
    rw [NearAll] at hn ⊢
    exact ⟨near_mono h t t' hn.1, nearAll_mono h ts ts' hn.2⟩
  | [], _ :: _, hn => by simp [NearAll] at hn
  | _ :: _, [], hn => by simp [NearAll] at hn
end

mutual
theorem dup_sound {max : Nat} : ∀ (t t' : Tree) (d d' : Diffs), d.Nodup → d.length ≤ max → dup max t t' d = some d' →
    d ⊆ d' ∧ d'.Nodup ∧ d'.length ≤ max ∧ Near d' t t'
  | .node l cs, .node l' cs', d, d', hd, hl, h => by
    rw [dup] at h
    split at h
    · simp at h
    · rename_i hc
      simp only [Bool.or_eq_true, Bool.not_eq_true', decide_eq_true_eq, not_or, Bool.not_eq_false] at hc
      cases hu : update l l' d with
      | none => simp [hu] at h
      | some e =>
        simp only [hu] at h
        split at h
        · simp at h
        · rename_i hle
          obtain ⟨u1, u2, u3⟩ := update_ok hd hc.1 hu
          obtain ⟨i1, i2, i3, i4⟩ := dupAll_sound cs cs' e d' u2 (by omega) h
          refine ⟨fun x hx => i1 (u1 hx), i2, i3, ?_⟩
          have := near_mono i1 (.node l []) (.node l' []) (by rw [Near]; exact ⟨u3, by simp [NearAll]⟩)
          rw [Near] at this ⊢
          exact ⟨this.1, i4⟩

theorem dupAll_sound {max : Nat} : ∀ (ts ts' : List Tree) (d d' : Diffs), d.Nodup → d.length ≤ max → dupAll max ts ts' d = some d' →
    d ⊆ d' ∧ d'.Nodup ∧ d'.length ≤ max ∧ NearAll d' ts ts'
  | [], [], d, d', hd, hl, h => by
    rw [dupAll] at h
    cases h
    exact ⟨List.Subset.refl _, hd, hl, by simp [NearAll]⟩
  | t :: ts, t' :: ts', d, d', hd, hl, h => by
    rw [dupAll] at h
    cases hu : dup max t t' d with
    | none => simp [hu] at h
    | some e =>
      simp only [hu] at h
      obtain ⟨u1, u2, u3, u4⟩ := dup_sound t t' d e hd hl hu
      obtain ⟨i1, i2, i3, i4⟩ := dupAll_sound ts ts' e d' u2 u3 h
      refine ⟨fun x hx => i1 (u1 hx), i2, i3, ?_⟩
      rw [NearAll]
      exact ⟨near_mono i1 t t' u4, i4⟩
  | [], _ :: _, _, _, _, _, h => by simp [dupAll] at h
  | _ :: _, [], _, _, _, _, h => by simp [dupAll] at h
end

theorem nearAll_length {D : Diffs} : ∀ {ts ts' : List Tree}, NearAll D ts ts' → ts.length = ts'.length
  | [], [], _ => rfl
  | t :: ts, t' :: ts', h => by
    rw [NearAll] at h
    simp [nearAll_length h.2]
  | [], _ :: _, h => by simp [NearAll] at h
  | _ :: _, [], h => by simp [NearAll] at h

mutual
theorem dup_complete {max : Nat} {D : Diffs} (hD : D.length ≤ max) : ∀ (t t' : Tree) (d : Diffs), d.Nodup → d ⊆ D → Near D t t' →
    ∃ d', dup max t t' d = some d' ∧ d'.Nodup ∧ d' ⊆ D
  | .node l cs, .node l' cs', d, hd, hs, hn => by
    rw [Near] at hn
    obtain ⟨hc, e, hu, he⟩ := update_of_fits hd hs hn.1
    have hen := (update_ok hd hc hu).2.1
    obtain ⟨d', h1, h2, h3⟩ := dupAll_complete hD cs cs' e hen he hn.2
    refine ⟨d', ?_, h2, h3⟩
    have hle := (List.subperm_of_subset hen he).length_le
    rw [dup, hc, nearAll_length hn.2]
    simp only [Bool.not_true, ne_eq, not_true_eq_false, decide_false, Bool.or_self, Bool.false_eq_true, if_false, hu]
    rw [if_neg (by omega), h1]

theorem dupAll_complete {max : Nat} {D : Diffs} (hD : D.length ≤ max) : ∀ (ts ts' : List Tree) (d : Diffs), d.Nodup → d ⊆ D → NearAll D ts ts' →
    ∃ d', dupAll max ts ts' d = some d' ∧ d'.Nodup ∧ d' ⊆ D
  | [], [], d, hd, hs, _ => ⟨d, by rw [dupAll], hd, hs⟩
  | t :: ts, t' :: ts', d, hd, hs, hn => by
    rw [NearAll] at hn
    obtain ⟨e, h1, h2, h3⟩ := dup_complete hD t t' d hd hs hn.1
    obtain ⟨d', i1, i2, i3⟩ := dupAll_complete hD ts ts' e h2 h3 hn.2
    exact ⟨d', by rw [dupAll, h1]; exact i1, i2, i3⟩
  | [], _ :: _, _, _, _, hn => by simp [NearAll] at hn
  | _ :: _, [], _, _, _, hn => by simp [NearAll] at hn
end

/-- C134: Blocks are found to be duplicate just if there are no more than `max` replacements of names, constants, attributes and operators such that the blocks are the same
as far as they are compared. -/
theorem C134_duplicate (max : Nat) (b b' : List Tree) : (dupAll max b b' []).isSome = true ↔ ∃ D : Diffs, D.length ≤ max ∧ NearAll D b b' := by
  rw [Option.isSome_iff_exists]
  constructor
  · rintro ⟨D, h⟩
    obtain ⟨_, _, h1, h2⟩ := dupAll_sound b b' [] D List.nodup_nil (Nat.zero_le _) h
    exact ⟨D, h1, h2⟩
  · rintro ⟨D, h1, h2⟩
    obtain ⟨d', h, _⟩ := dupAll_complete h1 b b' [] List.nodup_nil (List.nil_subset _) h2
    exact ⟨d', h⟩

/-- Nothing is left out in the comparison. -/
def Exact : Label → Prop
  | .compare _ => True
  | .other _ rest => rest = []
  | _ => True

mutual
/-- All nodes of a tree are such that nothing is left out, and comparisons have as many operators as operands but one. -/
def ExactTree : Tree → Prop
  | .node l cs => Exact l ∧ (∀ os, l = .compare os → os.length + 1 = cs.length) ∧ ExactAll cs

def ExactAll : List Tree → Prop
  | [] => True
  | t :: ts => ExactTree t ∧ ExactAll ts
end

mutual
/-- Constants with the same value have the same text. -/
def Texts (f : Nat → Str) : Tree → Prop
  | .node l cs => (∀ v t, l = .const v t → t = f v) ∧ TextsAll f cs

def TextsAll (f : Nat → Str) : List Tree → Prop
  | [] => True
  | t :: ts => Texts f t ∧ TextsAll f ts
end

theorem zip_eq_of_all : ∀ {os os' : List Str}, os.length = os'.length → (∀ p ∈ os.zip os', p.1 = p.2 ∨ p ∈ ([] : Diffs)) → os = os'
  | [], [], _, _ => rfl
  | o :: os, o' :: os', hl, h => by
    rw [List.zip_cons_cons] at h
    have h1 := h _ List.mem_cons_self
    have h2 := zip_eq_of_all (by simpa using hl) fun p hp => h p (List.mem_cons_of_mem _ hp)
    rw [h2]
    simpa using h1
  | [], _ :: _, hl, _ => by simp at hl
  | _ :: _, [], hl, _ => by simp at hl

mutual
theorem eq_of_near {f : Nat → Str} : ∀ (t t' : Tree), ExactTree t → ExactTree t' →
    Texts f t → Texts f t' → Near [] t t' → t = t'
  | .node l cs, .node l' cs', he, he', ht, ht', hn => by
    rw [Near] at hn
    rw [ExactTree] at he he'
    rw [Texts] at ht ht'
    have hcs := eq_of_nearAll cs cs' he.2.2 he'.2.2 ht.2 ht'.2 hn.2
    subst hcs
    have hf := hn.1
    congr 1
    cases l <;> cases l' <;> simp only [Fits, List.not_mem_nil, or_false] at hf
    case compare os os' =>
      have h1 := he.2.1 os rfl
      have h2 := he'.2.1 os' rfl
      rw [zip_eq_of_all (os := os) (os' := os') (by omega) (by simpa using hf)]
    case const =>
      subst hf
      rw [ht.1 _ _ rfl, ht'.1 _ _ rfl]
    case other =>
      have h1 := he.1
      have h2 := he'.1
      simp only [Exact] at h1 h2
      rw [hf, h1, h2]
    all_goals rw [hf]

theorem eq_of_nearAll {f : Nat → Str} : ∀ (ts ts' : List Tree), ExactAll ts → ExactAll ts' →
    TextsAll f ts → TextsAll f ts' → NearAll [] ts ts' → ts = ts'
  | [], [], _, _, _, _, _ => rfl
  | t :: ts, t' :: ts', he, he', ht, ht', hn => by
    rw [NearAll] at hn
    rw [ExactAll] at he he'
    rw [TextsAll] at ht ht'
    rw [eq_of_near t t' he.1 he'.1 ht.1 ht'.1 hn.1, eq_of_nearAll ts ts' he.2 he'.2 ht.2 ht'.2 hn.2]
  | [], _ :: _, _, _, _, _, hn => by simp [NearAll] at hn
  | _ :: _, [], _, _, _, _, hn => by simp [NearAll] at hn
end

/-- C134: If there are no differences and nothing is left out in the comparison, the blocks are the same. -/
theorem C134_identical_partial {max : Nat} {b b' : List Tree} (h : dupAll max b b' [] = some []) (he : ExactAll b) (he' : ExactAll b') {f : Nat → Str}
    (ht : TextsAll f b) (ht' : TextsAll f b') : b = b' :=
  eq_of_nearAll b b' he he' ht ht' (dupAll_sound b b' [] [] List.nodup_nil (Nat.zero_le _) h).2.2.2

/-! ### Which blocks are reported -/

theorem find_mem {α : Type} {p : α → Bool} {l : List α} {x : α} (h : l.find? p = some x) : x ∈ l ∧ p x = true :=
  ⟨List.mem_of_find?_eq_some h, List.find?_some h⟩

/-- C134: What is reported are blocks and ones after them that are alike. -/
theorem C134_reported : ∀ (closed : Nat) (bs : List Block) (b b' : Block), (b, b') ∈ scan closed bs →
    [b, b'].Sublist bs ∧ b.parent = b'.parent ∧ (dupAll 3 b.stmts b'.stmts []).isSome = true ∧ closed < b.last
  | closed, [], b, b', h => by simp [scan] at h
  | closed, c :: rest, b, b', h => by
    rw [scan] at h
    split at h
    · obtain ⟨h1, h2⟩ := C134_reported closed rest b b' h
      exact ⟨h1.cons _, h2⟩
    · rename_i c' hc
      split at hc
      · simp at hc
      · rename_i hl
        rcases List.mem_cons.1 h with he | h
        · cases he
          obtain ⟨hm, ha⟩ := find_mem hc
          simp only [alike, Bool.and_eq_true, decide_eq_true_eq] at ha
          exact ⟨(List.singleton_sublist.2 hm).cons_cons _, ha.1, ha.2, by omega⟩
        · obtain ⟨h1, h2, h3, h4⟩ := C134_reported c.last rest b b' h
          exact ⟨h1.cons _, h2, h3, by omega⟩

theorem scan_found : ∀ (closed : Nat) (bs pre post : List Block) (b b' : Block), bs = pre ++ b :: post → b' ∈ post → alike b b' = true →
    (∃ b'', (b, b'') ∈ scan closed bs) ∨ b.last ≤ closed ∨ ∃ c ∈ pre, ∃ c', (c, c') ∈ scan closed bs ∧ b.last ≤ c.last
  | closed, _, [], post, b, b', rfl, hm, ha => by
    by_cases hl : b.last ≤ closed
    · exact .inr (.inl hl)
    · left
      rw [List.nil_append, scan, if_neg hl]
      cases hf : post.find? (alike b) with
      | none => exact absurd ha (by simpa using List.find?_eq_none.1 hf b' hm)
      | some c => exact ⟨c, List.mem_cons_self⟩
  | closed, _, a :: pre, post, b, b', rfl, hm, ha => by
    rw [List.cons_append, scan]
    split
    · rcases scan_found closed _ pre post b b' rfl hm ha with h | h | ⟨c, hc, h⟩
      · exact .inl h
      · exact .inr (.inl h)
      · exact .inr (.inr ⟨c, List.mem_cons_of_mem _ hc, h⟩)
    · rename_i a' ha'
      rcases scan_found a.last _ pre post b b' rfl hm ha with ⟨b'', h⟩ | h | ⟨c, hc, c', h, hl⟩
      · exact .inl ⟨b'', List.mem_cons_of_mem _ h⟩
      · exact .inr (.inr ⟨a, List.mem_cons_self, a', List.mem_cons_self, h⟩)
      · exact .inr (.inr ⟨c, List.mem_cons_of_mem _ hc, c', List.mem_cons_of_mem _ h, hl⟩)

/-- C134: A block with three lines at least for which there is one after it that is alike is reported, or ends no later than one before it that is. -/
theorem C134_found (bs pre post : List Block) (b b' : Block) (hbs : (bs.filter fun b => !b.stmts.isEmpty && decide (b.last - b.first + 1 ≥ 3)) = pre ++ b :: post)
    (hm : b' ∈ post) (hp : b.parent = b'.parent) {D : Diffs} (hD : D.length ≤ 3) (hn : NearAll D b.stmts b'.stmts) :
    (∃ b'', (b, b'') ∈ duplicateBlocks bs) ∨ ∃ c ∈ pre, ∃ c', (c, c') ∈ duplicateBlocks bs ∧ b.last ≤ c.last := by
  have ha : alike b b' = true := by
    simp only [alike, hp, decide_true, Bool.true_and]
    exact (C134_duplicate 3 _ _).2 ⟨D, hD, hn⟩
  have hmem : b ∈ bs.filter fun b => !b.stmts.isEmpty && decide (b.last - b.first + 1 ≥ 3) := by rw [hbs]; simp
  have hlast : 0 < b.last := by
    rw [List.mem_filter] at hmem
    simp only [Bool.and_eq_true, decide_eq_true_eq] at hmem
    omega
  unfold duplicateBlocks
  rw [hbs]
  rcases scan_found 0 _ pre post b b' rfl hm ha with h | h | h
  · exact .inl h
  · omega
  · exact .inr h

/-! ### Programs -/

/-- Some expressions. -/
inductive Expr where
  | name (x : Str)
  | int (n : Nat)
  | slice (e : Expr) (lower upper : Option Nat)

/-- Some statements. -/
inductive Stmt where
  | assign (x : Str) (e : Expr)
  | aug (x op : Str) (e : Expr)
  | if_ (test : Expr) (body orelse : List Stmt)

/-- The text of a small number. -/
def digit (n : Nat) : Str := [Char.ofNat (48 + n)]

def num (n : Nat) : Tree := .node (.const n (digit n)) []

def present (o : Option Nat) : Str := if o.isSome then "1".toList else "0".toList

/-- The nodes and their children. -/
def Expr.tree : Expr → Tree
  | .name x => .node (.name x) []
  | .int n => num n
  | .slice e lower upper => .node (.other "Subscript".toList []) [e.tree, .node (.other "Slice".toList [present lower, present upper])
      (lower.toList.map num ++ upper.toList.map num)]

def target (x : Str) : Tree := .node (.other "AssignName".toList [x]) []

mutual
def Stmt.tree : Stmt → Tree
  | .assign x e => .node (.other "Assign".toList []) [target x, e.tree]
  | .aug x op e => .node (.other "AugAssign".toList [op]) [target x, e.tree]
  | .if_ t b o => .node (.other "If".toList [digit b.length]) (t.tree :: (treeAll b ++ treeAll o))

def treeAll : List Stmt → List Tree
  | [] => []
  | s :: l => s.tree :: treeAll l
end

/-- Values are lists; a number is the list of it. -/
abbrev Env := Str → List Nat

def Expr.eval (σ : Env) : Expr → List Nat
  | .name x => σ x
  | .int n => [n]
  | .slice e lower upper => ((match upper with | some u => (e.eval σ).take u | none => e.eval σ)).drop (lower.getD 0)

def set (σ : Env) (x : Str) (v : List Nat) : Env := fun y => if y = x then v else σ y

mutual
/-- What statements do; `+=` appends, other operators remove. -/
def Stmt.exec : Stmt → Env → Env
  | .assign x e, σ => set σ x (e.eval σ)
  | .aug x op e, σ => set σ x (if op = "+=".toList then σ x ++ e.eval σ else (σ x).filter fun v => !(e.eval σ).contains v)
  | .if_ t b o, σ => if (t.eval σ).isEmpty then execAll o σ else execAll b σ

def execAll : List Stmt → Env → Env
  | [], σ => σ
  | s :: l, σ => execAll l (s.exec σ)
end

def x : Str := "x".toList
def y : Str := "y".toList

/-- C134: Names that are assigned to are not compared: `x = 1; y = 2; x = y` and `y = 1; x = 2; y = y`. -/
theorem C134_targets_counterexample :
    dupAll 3 (treeAll [.assign x (.int 1), .assign y (.int 2), .assign x (.name y)]) (treeAll [.assign y (.int 1), .assign x (.int 2), .assign y (.name y)]) [] = some [] ∧
      execAll [.assign x (.int 1), .assign y (.int 2), .assign x (.name y)] (fun _ => []) y ≠
        execAll [.assign y (.int 1), .assign x (.int 2), .assign y (.name y)] (fun _ => []) y := by
  constructor <;> decide +kernel

/-- C134: Nor are operators of augmented assignments. -/
theorem C134_augmented_counterexample :
    dupAll 3 (treeAll [.assign x (.int 1), .aug x "+=".toList (.int 1), .aug x "+=".toList (.int 2)])
      (treeAll [.assign x (.int 1), .aug x "-=".toList (.int 1), .aug x "+=".toList (.int 2)]) [] = some [] ∧
      execAll [.assign x (.int 1), .aug x "+=".toList (.int 1), .aug x "+=".toList (.int 2)] (fun _ => []) x ≠
        execAll [.assign x (.int 1), .aug x "-=".toList (.int 1), .aug x "+=".toList (.int 2)] (fun _ => []) x := by
  constructor <;> decide +kernel

/-- C134: Nor is what is in the `else`: `if x: x = 1; y = 1 else: x = 2` and `if x: x = 1 else: y = 1; x = 2`. -/
theorem C134_else_counterexample :
    dupAll 3 (treeAll [.if_ (.name x) [.assign x (.int 1), .assign y (.int 1)] [.assign x (.int 2)]])
      (treeAll [.if_ (.name x) [.assign x (.int 1)] [.assign y (.int 1), .assign x (.int 2)]]) [] = some [] ∧
      execAll [.if_ (.name x) [.assign x (.int 1), .assign y (.int 1)] [.assign x (.int 2)]] (fun _ => []) y ≠
        execAll [.if_ (.name x) [.assign x (.int 1)] [.assign y (.int 1), .assign x (.int 2)]] (fun _ => []) y := by
  constructor <;> decide +kernel

/-- C134: Nor is it told apart whether a bound of a slice is the lower or the upper one: `y = x[1:]` and `y = x[:1]`. -/
theorem C134_slices_counterexample :
    dupAll 3 (treeAll [.assign y (.slice (.name x) (some 1) none)]) (treeAll [.assign y (.slice (.name x) none (some 1))]) [] = some [] ∧
      execAll [.assign y (.slice (.name x) (some 1) none)] (fun _ => [5, 6]) y ≠ execAll [.assign y (.slice (.name x) none (some 1))] (fun _ => [5, 6]) y := by
  constructor <;> decide +kernel

/-! ### Examples -/

def exBlock (n m k first : Nat) : Block := ⟨treeAll [.assign x (.int n), .aug x "+=".toList (.name y), .assign x (.int m), .assign y (.int k)], "FunctionDef".toList,
  first, first + 3⟩

/-- The first of the blocks is reported with the second one, and that one with the third one. -/
example : (duplicateBlocks [exBlock 1 2 3 1, exBlock 4 5 6 11, exBlock 1 2 2 21]).map (fun p => (p.1.first, p.2.first)) = [(1, 11), (11, 21)] := by
  decide +kernel

/-- The replacements are counted once each. -/
example : dupAll 3 (exBlock 1 1 1 1).stmts (exBlock 4 4 4 1).stmts [] = some [("1".toList, "4".toList)] := by decide +kernel

/-- With more than three, nothing is found. -/
example : dupAll 3 (treeAll [.assign x (.int 1), .assign x (.int 2), .assign x (.int 3), .assign x (.int 4)])
    (treeAll [.assign x (.int 5), .assign x (.int 6), .assign x (.int 7), .assign x (.int 8)]) [] = none := by decide +kernel

/-- Both hypotheses hold of expressions without slices. -/
example : ExactAll [(Expr.name x).tree, (Expr.int 3).tree] ∧ TextsAll digit [(Expr.name x).tree, (Expr.int 3).tree] := by
  simp [Expr.tree, num, ExactAll, ExactTree, Exact, TextsAll, Texts]

end Verif.DupBlocks
