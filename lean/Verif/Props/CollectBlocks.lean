import Verif.Model.CollectBlocks
import Verif.Props.DupBlocks
import Verif.Props.DupSequence

/-!
C142: which blocks of a file are compared.
-/

namespace Verif.CollectBlocks

open DupBlocks (Near NearAll Diffs)

mutual
/-- A statement and all statements in it, at any depth. -/
def within : Stmt → List Stmt
  | .simple i l => [.simple i l]
  | .ite i b o => .ite i b o :: (withinAll b ++ withinAll o)
  | .loop i f b o => .loop i f b o :: (withinAll b ++ withinAll o)
  | .with_ i b => .with_ i b :: withinAll b
  | .try_ i b hs o f => .try_ i b hs o f :: (withinAll b ++ withinHandlers hs ++ withinAll o ++ withinAll f)
  | .func i b => .func i b :: withinAll b
  | .asyncFunc i b => .asyncFunc i b :: withinAll b
  | .cls i b => .cls i b :: withinAll b
  | .other i n bs => .other i n bs :: withinBodies bs

def withinAll : List Stmt → List Stmt
  | [] => []
  | s :: ss => within s ++ withinAll ss

def withinHandlers : List Handler → List Stmt
  | [] => []
  | .mk _ b :: hs => withinAll b ++ withinHandlers hs

def withinBodies : List (List Stmt) → List Stmt
  | [] => []
  | b :: bs => withinAll b ++ withinBodies bs
end

/-- The bodies of a statement that are compared, with the class of the node that they are in; an `else` that is an `elif` is none. -/
def bodies : Stmt → List Found
  | .ite _ b [.ite _ _ _] => [("If".toList, b)]
  | .ite _ b o => [("If".toList, b), ("If".toList, o)]
  | .loop _ true b o => [("For".toList, b), ("For".toList, o)]
  | .loop _ false b o => [("While".toList, b), ("While".toList, o)]
  | .with_ _ b => [("With".toList, b)]
  | .try_ _ b hs o f => ("Try".toList, b) :: (hs.map fun h => ("ExceptHandler".toList, h.body)) ++ [("Try".toList, o), ("Try".toList, f)]
  | .func _ b => [("FunctionDef".toList, b)]
  | _ => []

/-- The blocks of a file: the statements that are not in others, without definitions and the main block, and bodies of statements, at any depth. -/
def blocksOf (m : List Stmt) : List Found :=
  (("Module".toList, m.filter fun s => !isDef s && !isMain s) :: (withinAll m).flatMap bodies).filter fun b => !b.2.isEmpty

theorem bodies_if (i : Info) (b o : List Stmt) : bodies (.ite i b o) = ("If".toList, b) :: if hasElif o then [] else [("If".toList, o)] := by
  unfold bodies
  match o with
  | [] => simp [hasElif]
  | [s] => cases s <;> simp [hasElif, Stmt.isIf]
  | _ :: _ :: _ => simp [hasElif]

theorem nonempty_eq (b : Found) : decide (b.2.length > 0) = !b.2.isEmpty := by
  cases b.2 <;> simp

theorem filter_if (c : Str) (o : List Stmt) (p : Bool) :
    (if decide (o.length > 0) && p then [(c, o)] else []).filter (fun b : Found => !b.2.isEmpty) =
      (if p then [(c, o)] else []).filter fun b : Found => !b.2.isEmpty := by
  cases o <;> cases p <;> simp

theorem filter_if' (c : Str) (o : List Stmt) :
    (if o.length > 0 then [(c, o)] else []).filter (fun b : Found => !b.2.isEmpty) = [(c, o)].filter fun b : Found => !b.2.isEmpty := by
  cases o <;> simp

theorem if_handlers (hs : List Handler) (f : Handler → Found) : (if hs.length > 0 then hs.map f else []) = hs.map f := by
  cases hs <;> simp

mutual
theorem visit_eq : ∀ s : Stmt, (visit s).filter (fun b : Found => !b.2.isEmpty) = ((within s).flatMap bodies).filter fun b : Found => !b.2.isEmpty
  | .simple i l => by simp [visit, within, bodies]
  | .ite i b o => by
    rw [visit, within, List.flatMap_cons, List.flatMap_append]
    simp only [List.filter_append, filter_if, visitMany_eq b, visitMany_eq o, bodies_if]
    cases hasElif o <;> simp [List.filter_cons]
    all_goals split <;> simp
  | .loop i f b o => by
    rw [visit, within, List.flatMap_cons, List.flatMap_append]
    simp only [List.filter_append, filter_if', visitMany_eq b, visitMany_eq o]
    cases f <;> simp [bodies, loopClass, List.filter_cons]
    all_goals split <;> split <;> simp
  | .with_ i b => by
    rw [visit, within, List.flatMap_cons]
    simp only [List.filter_append, visitMany_eq b, bodies]
  | .try_ i b hs o f => by
    rw [visit, within, List.flatMap_cons]
    simp only [List.flatMap_append, List.filter_append, filter_if', if_handlers, visitMany_eq b, visitMany_eq o, visitMany_eq f, visitHandlers_eq hs, bodies]
    have : ∀ x y : Found, [x, y] = [x] ++ [y] := fun _ _ => rfl
    have h2 : ∀ (x : Found) (l : List Found), x :: l = [x] ++ l := fun _ _ => rfl
    rw [h2 _ (List.map _ _), this]
    simp only [List.filter_append, List.append_assoc]
  | .func i b => by
    rw [visit, within, List.flatMap_cons]
    simp only [List.filter_append, visitMany_eq b, bodies]
  | .asyncFunc i b => by
    rw [visit, within, List.flatMap_cons]
    simp only [visitMany_eq b, bodies, List.nil_append]
  | .cls i b => by
    rw [visit, within, List.flatMap_cons]
    simp only [visitMany_eq b, bodies, List.nil_append]
  | .other i n bs => by
    rw [visit, within, List.flatMap_cons]
    simp only [visitBodies_eq bs, bodies, List.nil_append]

theorem visitMany_eq : ∀ ss : List Stmt, (visitMany ss).filter (fun b : Found => !b.2.isEmpty) = ((withinAll ss).flatMap bodies).filter fun b : Found => !b.2.isEmpty
  | [] => by simp [visitMany, withinAll]
  | s :: ss => by rw [visitMany, withinAll, List.flatMap_append, List.filter_append, List.filter_append, visit_eq s, visitMany_eq ss]

theorem visitHandlers_eq : ∀ hs : List Handler,
    (visitHandlers hs).filter (fun b : Found => !b.2.isEmpty) = ((withinHandlers hs).flatMap bodies).filter fun b : Found => !b.2.isEmpty
  | [] => by simp [visitHandlers, withinHandlers]
  | .mk _ b :: hs => by rw [visitHandlers, withinHandlers, List.flatMap_append, List.filter_append, List.filter_append, visitMany_eq b, visitHandlers_eq hs]

theorem visitBodies_eq : ∀ bs : List (List Stmt),
    (visitBodies bs).filter (fun b : Found => !b.2.isEmpty) = ((withinBodies bs).flatMap bodies).filter fun b : Found => !b.2.isEmpty
  | [] => by simp [visitBodies, withinBodies]
  | b :: bs => by rw [visitBodies, withinBodies, List.flatMap_append, List.filter_append, List.filter_append, visitMany_eq b, visitBodies_eq bs]
end

theorem visitModule_eq (m : List Stmt) : (visitModule m).filter (fun b : Found => !b.2.isEmpty) = blocksOf m := by
  rw [visitModule, blocksOf, List.filter_append, visitMany_eq, ← List.filter_append]
  rfl

/-- C142: Sequences are looked for in each block of a file, once. -/
theorem C142_sequence_blocks (m : List Stmt) : (sequenceBlocks m).Perm (blocksOf m) := by
  refine (List.mergeSort_perm _ _).trans ?_
  simp only [nonempty_eq, visitModule_eq]
  exact .refl _

/-- C142: Blocks of a file with three lines at least are compared, each once. -/
theorem C142_compared_blocks (m : List Stmt) : (comparedBlocks m).Perm ((blocksOf m).filter fun b => decide (lastLine b.2 - firstLine b.2 + 1 ≥ 3)) := by
  refine (List.mergeSort_perm _ _).trans ?_
  rw [← visitModule_eq, List.filter_filter]
  refine List.Perm.of_eq (List.filter_congr fun b _ => ?_)
  rw [nonempty_eq, Bool.and_comm]
  rfl

/-- C142: The main block that is not one of the statements of the file is `if __name__ == "__main__"`. -/
theorem C142_main (s : Stmt) : isMain s = true ↔ ∃ first last cs v cs' body orelse,
    s = .ite ⟨first, last, [.node (.compare ["==".toList]) [.node (.name "__name__".toList) cs, .node (.const v "__main__".toList) cs']]⟩ body orelse := by
  constructor
  · intro h
    unfold isMain at h
    split at h
    · rename_i i body orelse
      obtain ⟨first, last, heads⟩ := i
      split at h
      · rename_i t ht
        simp only at ht
        subst ht
        unfold isMainTest at h
        split at h
        · rename_i op x cs v t cs'
          simp only [Bool.and_eq_true, decide_eq_true_eq] at h
          obtain ⟨⟨rfl, rfl⟩, rfl⟩ := h
          exact ⟨first, last, cs, v, cs', body, orelse, rfl⟩
        · simp at h
      · simp at h
    · simp at h
  · rintro ⟨first, last, cs, v, cs', body, orelse, rfl⟩
    simp [isMain, isMainTest]

/-- C142: What is left out of the statements of the file besides are functions and classes. -/
theorem C142_definitions (s : Stmt) : isDef s = true ↔ ∃ i body, s = .func i body ∨ s = .asyncFunc i body ∨ s = .cls i body := by
  cases s <;> simp [isDef]

/-! ### Sequences -/

/-- C142: The sequences that are reported for a file are those of its blocks. -/
theorem C142_sequences (tree : Stmt → DupSequence.Tree) (m : List Stmt) (b : Found) (r : DupSequence.Report) :
    (b, r) ∈ fileSequences tree m ↔ b ∈ blocksOf m ∧ r ∈ DupSequence.processBlock (b.2.map tree) := by
  unfold fileSequences
  rw [List.mem_flatMap]
  constructor
  · rintro ⟨a, ha, h⟩
    split at h
    · obtain ⟨r', hr, he⟩ := List.mem_map.1 h
      cases he
      exact ⟨(C142_sequence_blocks m).mem_iff.1 ha, hr⟩
    · simp at h
  · rintro ⟨h1, h2⟩
    refine ⟨b, (C142_sequence_blocks m).mem_iff.2 h1, ?_⟩
    rw [if_pos]
    · exact List.mem_map.2 ⟨r, h2, rfl⟩
    · unfold DupSequence.processBlock at h2
      split at h2
      · simp at h2
      · rw [List.length_map] at *
        omega

/-- C142: Wherever in a file there are four subblocks one after another that are the same, or that differ in their last constant only, which are numbers with the
same step, or five if these are others, a sequence is reported that starts no later and goes on there. -/
theorem C142_sequence_found {tree : Stmt → DupSequence.Tree} {m : List Stmt} {b : Found} (hb : b ∈ blocksOf m) {s len n : Nat} (hlen : 0 < len) (hn : 4 ≤ n)
    (hfit : s + n * len ≤ b.2.length)
    (h : (∀ k, k + 1 < n → DupSequence.SameAll (DupSequence.sub (b.2.map tree) s len k) (DupSequence.sub (b.2.map tree) s len (k + 1))) ∨
      ∃ v : Nat → DupSequence.Val,
        (∀ k, k + 1 < n → DupSequence.EndsAll (v k) (v (k + 1)) (DupSequence.sub (b.2.map tree) s len k) (DupSequence.sub (b.2.map tree) s len (k + 1))) ∧
        (5 ≤ n ∨ ∃ a step : Int, ∀ k < 4, v k = .int (a + k * step))) :
    ∃ r, (b, r) ∈ fileSequences tree m ∧ r.start ≤ s ∧ s < r.start + r.count * r.len := by
  obtain ⟨r, hr, h1, h2⟩ := DupSequence.C135_found (block := b.2.map tree) hlen hn (by rw [List.length_map]; exact hfit) h
  exact ⟨r, (C142_sequences tree m b r).2 ⟨hb, hr⟩, h1, h2⟩

/-- C142, for other blocks than that of the whole file: The statements of a block in which a sequence is reported are the body of a statement, none left out. -/
theorem C142_consecutive_partial {tree : Stmt → DupSequence.Tree} {m : List Stmt} {b : Found} {r : DupSequence.Report} (h : (b, r) ∈ fileSequences tree m)
    (hm : b.1 ≠ "Module".toList) : ∃ s ∈ withinAll m, b ∈ bodies s := by
  have := ((C142_sequences tree m b r).1 h).1
  rw [blocksOf, List.mem_filter, List.mem_cons] at this
  rcases this.1 with rfl | h
  · exact absurd rfl hm
  · exact List.mem_flatMap.1 h

/-! ### Duplicate blocks -/

theorem keyLe_trans (a b c : Found) : keyLe a b = true → keyLe b c = true → keyLe a c = true := by
  simp only [keyLe, Bool.or_eq_true, Bool.and_eq_true, decide_eq_true_eq]
  omega

theorem keyLe_total (a b : Found) : (keyLe a b || keyLe b a) = true := by
  simp only [keyLe, Bool.or_eq_true, Bool.and_eq_true, decide_eq_true_eq]
  omega

theorem compared_sorted (m : List Stmt) : (comparedBlocks m).Pairwise fun a b => keyLe a b = true :=
  List.pairwise_mergeSort keyLe_trans keyLe_total _

/-- Replacements the other way. -/
def flip (D : Diffs) : Diffs := D.map fun p => (p.2, p.1)

theorem mem_flip {D : Diffs} {a b : Str} (h : (a, b) ∈ D) : (b, a) ∈ flip D := List.mem_map.2 ⟨(a, b), h, rfl⟩

theorem fits_flip {D : Diffs} {l l' : DupBlocks.Label} (h : DupBlocks.Fits D l l') : DupBlocks.Fits (flip D) l' l := by
  cases l <;> cases l' <;> simp only [DupBlocks.Fits] at h ⊢
  case compare os os' =>
    intro p hp
    have : (p.2, p.1) ∈ os.zip os' := by
      rw [List.mem_iff_getElem?] at hp ⊢
      obtain ⟨i, hi⟩ := hp
      refine ⟨i, ?_⟩
      rw [List.getElem?_zip_eq_some] at hi ⊢
      exact ⟨hi.2, hi.1⟩
    exact (h _ this).imp Eq.symm fun h => by simpa using mem_flip h
  case boolOp => exact h.symm
  case other => exact h.symm
  all_goals exact h.imp Eq.symm mem_flip

mutual
theorem near_flip {D : Diffs} : ∀ t t' : DupBlocks.Tree, Near D t t' → Near (flip D) t' t
  | .node l cs, .node l' cs', h => by
    rw [Near] at h ⊢
    exact ⟨fits_flip h.1, nearAll_flip cs cs' h.2⟩

theorem nearAll_flip {D : Diffs} : ∀ ts ts' : List DupBlocks.Tree, NearAll D ts ts' → NearAll (flip D) ts' ts
  | [], [], _ => trivial
  | t :: ts, t' :: ts', h => by
    rw [NearAll] at h ⊢
    exact ⟨near_flip t t' h.1, nearAll_flip ts ts' h.2⟩
  | [], _ :: _, h => by simp [NearAll] at h
  | _ :: _, [], h => by simp [NearAll] at h
end

theorem alike_of_near {b b' : Found} (hp : b.1 = b'.1) {D : Diffs} (hD : D.length ≤ 3) (hn : NearAll D (toTrees b.2) (toTrees b'.2)) :
    DupBlocks.alike (toBlock b) (toBlock b') = true := by
  simp only [DupBlocks.alike, toBlock, hp, decide_true, Bool.true_and]
  exact (DupBlocks.C134_duplicate 3 _ _).2 ⟨D, hD, hn⟩

theorem compared_last {m : List Stmt} {b : Found} (h : b ∈ comparedBlocks m) : 0 < lastLine b.2 := by
  have := (C142_compared_blocks m).mem_iff.1 h
  rw [List.mem_filter, decide_eq_true_eq] at this
  omega

theorem pair_found {m : List Stmt} {b b' : Found} (h : [b, b'].Sublist (comparedBlocks m)) (ha : DupBlocks.alike (toBlock b) (toBlock b') = true) :
    ∃ c c', (c, c') ∈ fileBlocks m ∧ c.first ≤ firstLine b.2 ∧ lastLine b.2 ≤ c.last := by
  obtain ⟨pre, post, he, hs⟩ := List.cons_sublist_iff.1 h
  obtain ⟨p, q, rfl⟩ := List.append_of_mem hs.1
  have hb' : b' ∈ q ++ post := List.mem_append_right _ (List.singleton_sublist.1 hs.2)
  have hl : comparedBlocks m = p ++ b :: (q ++ post) := by rw [he]; simp
  rcases DupBlocks.scan_found 0 ((comparedBlocks m).map toBlock) (p.map toBlock) ((q ++ post).map toBlock) (toBlock b) (toBlock b') (by rw [hl]; simp)
    (List.mem_map_of_mem hb') ha with ⟨b'', h⟩ | h | ⟨c, hc, c', h, hle⟩
  · exact ⟨_, b'', h, Nat.le_refl _, Nat.le_refl _⟩
  · exact absurd (compared_last (by rw [hl]; simp : b ∈ comparedBlocks m)) (by simp only [toBlock] at h; omega)
  · obtain ⟨a, ham, rfl⟩ := List.mem_map.1 hc
    refine ⟨_, c', h, ?_, hle⟩
    have hso := compared_sorted m
    rw [hl, List.pairwise_append] at hso
    have := hso.2.2 a ham b List.mem_cons_self
    simp only [keyLe, Bool.or_eq_true, Bool.and_eq_true, decide_eq_true_eq] at this
    simp only [toBlock]
    omega

theorem perm_pair {α : Type} {l : List α} {b b' : α} (h : l.Perm [b, b']) : l = [b, b'] ∨ l = [b', b] := by
  match l, h.length_eq with
  | [x, y], _ =>
    have hx : x = b ∨ x = b' := by simpa using h.mem_iff.1 (List.mem_cons_self : x ∈ [x, y])
    rcases hx with rfl | rfl
    · exact .inl (by rw [List.perm_singleton.1 h.cons_inv])
    · exact .inr (by rw [List.perm_singleton.1 (h.trans (List.Perm.swap _ _ _)).cons_inv])

/-- C142: If two blocks of a file with three lines at least, in nodes of the same class, are the same but for three replacements at most, a block is reported that
covers one of them. -/
theorem C142_duplicates_found (m : List Stmt) (b b' : Found) (h : [b, b'].Subperm ((blocksOf m).filter fun b => decide (lastLine b.2 - firstLine b.2 + 1 ≥ 3)))
    (hp : b.1 = b'.1) {D : Diffs} (hD : D.length ≤ 3) (hn : NearAll D (toTrees b.2) (toTrees b'.2)) :
    ∃ e ∈ [b, b'], ∃ c c', (c, c') ∈ fileBlocks m ∧ c.first ≤ firstLine e.2 ∧ lastLine e.2 ≤ c.last := by
  obtain ⟨l, hl, hs⟩ := h.trans (C142_compared_blocks m).symm.subperm
  rcases perm_pair hl with rfl | rfl
  · exact ⟨b, by simp, pair_found hs (alike_of_near hp hD hn)⟩
  · exact ⟨b', by simp, pair_found hs (alike_of_near hp.symm (by simpa [flip] using hD) (nearAll_flip _ _ hn))⟩

mutual
def treeSize : DupBlocks.Tree → Nat
  | .node _ cs => 1 + treeSizes cs

def treeSizes : List DupBlocks.Tree → Nat
  | [] => 0
  | t :: ts => treeSize t + treeSizes ts
end

theorem treeSizes_append (a b : List DupBlocks.Tree) : treeSizes (a ++ b) = treeSizes a + treeSizes b := by
  induction a with
  | nil => simp [treeSizes]
  | cons t ts ih => simp only [List.cons_append, treeSizes, ih]; omega

mutual
theorem near_size {D : Diffs} : ∀ t t' : DupBlocks.Tree, Near D t t' → treeSize t = treeSize t'
  | .node l cs, .node l' cs', h => by
    rw [Near] at h
    rw [treeSize, treeSize, nearAll_size cs cs' h.2]

theorem nearAll_size {D : Diffs} : ∀ ts ts' : List DupBlocks.Tree, NearAll D ts ts' → treeSizes ts = treeSizes ts'
  | [], [], _ => rfl
  | t :: ts, t' :: ts', h => by
    rw [NearAll] at h
    rw [treeSizes, treeSizes, near_size t t' h.1, nearAll_size ts ts' h.2]
  | [], _ :: _, h => by simp [NearAll] at h
  | _ :: _, [], h => by simp [NearAll] at h
end

theorem handler_size : ∀ (hs : List Handler) (h : Handler), h ∈ hs → treeSizes (toTrees h.body) ≤ treeSizes (handlerTrees hs)
  | .mk i b :: hs, h, hm => by
    rw [handlerTrees, treeSizes, treeSize, treeSizes_append]
    rcases List.mem_cons.1 hm with rfl | hm
    · simp only [Handler.body]; omega
    · have := handler_size hs h hm
      omega

theorem body_size (s : Stmt) (b : Found) (h : b ∈ bodies s) : treeSizes (toTrees b.2) < treeSize (toTree s) := by
  cases s with
  | ite i a o =>
    simp only [toTree, treeSize, treeSizes_append]
    cases ho : hasElif o <;> simp only [bodies_if, ho, List.mem_cons, List.not_mem_nil, or_false, Bool.false_eq_true, if_true, if_false] at h
    · rcases h with rfl | rfl <;> simp only <;> omega
    · subst h; simp only; omega
  | loop i f a o =>
    simp only [toTree, treeSize, treeSizes_append]
    cases f <;> simp only [bodies, List.mem_cons, List.not_mem_nil, or_false] at h <;> rcases h with rfl | rfl <;> simp only <;> omega
  | with_ i a =>
    simp only [toTree, treeSize, treeSizes_append]
    simp only [bodies, List.mem_singleton] at h
    subst h; simp only; omega
  | func i a =>
    simp only [toTree, treeSize, treeSizes_append]
    simp only [bodies, List.mem_singleton] at h
    subst h; simp only; omega
  | try_ i a hs o f =>
    simp only [toTree, treeSize, treeSizes_append]
    simp only [bodies, List.mem_append, List.mem_cons, List.mem_map, List.not_mem_nil, or_false] at h
    rcases h with (rfl | ⟨x, hx, rfl⟩) | rfl | rfl
    · simp only; omega
    · have := handler_size hs x hx
      simp only; omega
    · simp only; omega
    · simp only; omega
  | simple => simp [bodies] at h
  | asyncFunc => simp [bodies] at h
  | cls => simp [bodies] at h
  | other => simp [bodies] at h

mutual
theorem within_size : ∀ (s s' : Stmt), s' ∈ within s → treeSize (toTree s') ≤ treeSize (toTree s)
  | .simple i l, s', h => by
    rw [within, List.mem_singleton] at h
    subst h; exact Nat.le_refl _
  | .ite i b o, s', h => by
    rw [within, List.mem_cons, List.mem_append] at h
    rcases h with rfl | h | h
    · exact Nat.le_refl _
    · have := withinAll_size b s' h
      rw [toTree, treeSize, treeSizes_append, treeSizes_append]; omega
    · have := withinAll_size o s' h
      rw [toTree, treeSize, treeSizes_append, treeSizes_append]; omega
  | .loop i f b o, s', h => by
    rw [within, List.mem_cons, List.mem_append] at h
    rcases h with rfl | h | h
    · exact Nat.le_refl _
    · have := withinAll_size b s' h
      rw [toTree, treeSize, treeSizes_append, treeSizes_append]; omega
    · have := withinAll_size o s' h
      rw [toTree, treeSize, treeSizes_append, treeSizes_append]; omega
  | .with_ i b, s', h => by
    rw [within, List.mem_cons] at h
    rcases h with rfl | h
    · exact Nat.le_refl _
    · have := withinAll_size b s' h
      rw [toTree, treeSize, treeSizes_append]; omega
  | .try_ i b hs o f, s', h => by
    rw [within, List.mem_cons, List.mem_append, List.mem_append, List.mem_append] at h
    rcases h with rfl | ((h | h) | h) | h
    · exact Nat.le_refl _
    · have := withinAll_size b s' h
      rw [toTree, treeSize]; simp only [treeSizes_append]; omega
    · have := withinHandlers_size hs s' h
      rw [toTree, treeSize]; simp only [treeSizes_append]; omega
    · have := withinAll_size o s' h
      rw [toTree, treeSize]; simp only [treeSizes_append]; omega
    · have := withinAll_size f s' h
      rw [toTree, treeSize]; simp only [treeSizes_append]; omega
  | .func i b, s', h => by
    rw [within, List.mem_cons] at h
    rcases h with rfl | h
    · exact Nat.le_refl _
    · have := withinAll_size b s' h
      rw [toTree, treeSize, treeSizes_append]; omega
  | .asyncFunc i b, s', h => by
    rw [within, List.mem_cons] at h
    rcases h with rfl | h
    · exact Nat.le_refl _
    · have := withinAll_size b s' h
      rw [toTree, treeSize, treeSizes_append]; omega
  | .cls i b, s', h => by
    rw [within, List.mem_cons] at h
    rcases h with rfl | h
    · exact Nat.le_refl _
    · have := withinAll_size b s' h
      rw [toTree, treeSize, treeSizes_append]; omega
  | .other i n bs, s', h => by
    rw [within, List.mem_cons] at h
    rcases h with rfl | h
    · exact Nat.le_refl _
    · have := withinBodies_size bs s' h
      rw [toTree, treeSize, treeSizes_append]; omega

theorem withinAll_size : ∀ (ss : List Stmt) (s' : Stmt), s' ∈ withinAll ss → treeSize (toTree s') ≤ treeSizes (toTrees ss)
  | [], s', h => by simp [withinAll] at h
  | s :: ss, s', h => by
    rw [withinAll, List.mem_append] at h
    rw [toTrees, treeSizes]
    rcases h with h | h
    · have := within_size s s' h; omega
    · have := withinAll_size ss s' h; omega

theorem withinHandlers_size : ∀ (hs : List Handler) (s' : Stmt), s' ∈ withinHandlers hs → treeSize (toTree s') ≤ treeSizes (handlerTrees hs)
  | [], s', h => by simp [withinHandlers] at h
  | .mk i b :: hs, s', h => by
    rw [withinHandlers, List.mem_append] at h
    rw [handlerTrees, treeSizes, treeSize, treeSizes_append]
    rcases h with h | h
    · have := withinAll_size b s' h; omega
    · have := withinHandlers_size hs s' h; omega

theorem withinBodies_size : ∀ (bs : List (List Stmt)) (s' : Stmt), s' ∈ withinBodies bs → treeSize (toTree s') ≤ treeSizes (bodyTrees bs)
  | [], s', h => by simp [withinBodies] at h
  | b :: bs, s', h => by
    rw [withinBodies, List.mem_append] at h
    rw [bodyTrees, treeSizes_append]
    rcases h with h | h
    · have := withinAll_size b s' h; omega
    · have := withinBodies_size bs s' h; omega
end

/-- C142: What is reported are two blocks of the file with three lines at least, in nodes of the same class, that are the same but for three replacements at most;
none is in the other one, and the one that is named first does not start after the other one. -/
theorem C142_duplicates (m : List Stmt) (c c' : DupBlocks.Block) (h : (c, c') ∈ fileBlocks m) :
    ∃ b b' : Found, c = toBlock b ∧ c' = toBlock b' ∧ [b, b'].Subperm ((blocksOf m).filter fun b => decide (lastLine b.2 - firstLine b.2 + 1 ≥ 3)) ∧
      b.1 = b'.1 ∧ (∃ D : Diffs, D.length ≤ 3 ∧ NearAll D (toTrees b.2) (toTrees b'.2)) ∧ firstLine b.2 ≤ firstLine b'.2 ∧
      ∀ k, (k, b'.2) ∉ (withinAll b.2).flatMap bodies ∧ (k, b.2) ∉ (withinAll b'.2).flatMap bodies := by
  obtain ⟨h1, h2, h3, -⟩ := DupBlocks.C134_reported 0 _ c c' h
  obtain ⟨l, hl, he⟩ := List.sublist_map_iff.1 h1
  match l, he with
  | [b, b'], he =>
    simp only [List.map_cons, List.map_nil, List.cons.injEq, and_true] at he
    obtain ⟨rfl, rfl⟩ := he
    obtain ⟨D, hD, hn⟩ := (DupBlocks.C134_duplicate 3 _ _).1 h3
    have hsz : treeSizes (toTrees b.2) = treeSizes (toTrees b'.2) := nearAll_size _ _ hn
    have hso := (compared_sorted m).sublist hl
    simp only [List.pairwise_cons, List.mem_singleton, forall_eq, keyLe, Bool.or_eq_true, Bool.and_eq_true, decide_eq_true_eq] at hso
    refine ⟨b, b', rfl, rfl, hl.subperm.trans (C142_compared_blocks m).subperm, h2, ⟨D, hD, hn⟩, by omega, fun k => ⟨fun hk => ?_, fun hk => ?_⟩⟩
    · obtain ⟨s, hs, hb⟩ := List.mem_flatMap.1 hk
      have i1 := body_size s _ hb
      have i2 := withinAll_size _ s hs
      simp only at i1
      omega
    · obtain ⟨s, hs, hb⟩ := List.mem_flatMap.1 hk
      have i1 := body_size s _ hb
      have i2 := withinAll_size _ s hs
      simp only at i1
      omega

/-! ### Examples -/

/-- `l.append(n)` in line `n`. -/
def call (n : Nat) : Stmt := .simple ⟨n, n, [.node (.const n (DupBlocks.digit n)) []]⟩ (.other "Expr".toList [])

/-- What is compared for sequences: the number. -/
def exTree : Stmt → DupSequence.Tree
  | .simple i _ => .node "Expr".toList [] false [.const (.int i.first)]
  | _ => .node "other".toList [] false []

def exInfo (first last : Nat) : Info := ⟨first, last, []⟩

/-- The property fails: there are statements between those of a sequence that is reported, `l.append(1)`, `def f(): ...`, `l.append(2)`, `class A: ...`, `l.append(3)`
and `l.append(4)`. -/
theorem C142_consecutive_counterexample :
    (("Module".toList, [call 1, call 2, call 3, call 4]), ⟨0, 1, 4⟩) ∈
      fileSequences exTree [call 1, .func (exInfo 10 10) [], call 2, .cls (exInfo 11 11) [], call 3, call 4] :=
  (C142_sequences _ _ _ _).2 ⟨by simp [blocksOf, isDef, isMain, call], by decide +kernel⟩

/-- In a function, this is reported. -/
example : (("FunctionDef".toList, [call 1, call 2, call 3, call 4]), ⟨0, 1, 4⟩) ∈
    fileSequences exTree [.func (exInfo 1 4) [call 1, call 2, call 3, call 4]] :=
  (C142_sequences _ _ _ _).2 ⟨by simp [blocksOf, isDef, isMain, call, withinAll, within, bodies], by decide +kernel⟩

/-- The property fails: bodies of classes are not looked at. -/
theorem C142_class_counterexample (b : List Stmt) (i : Info) (hb : ∀ s ∈ b, ∃ j l, s = .simple j l) (tree : Stmt → DupSequence.Tree) :
    fileSequences tree [.cls i b] = [] := by
  have hw : ∀ b : List Stmt, (∀ s ∈ b, ∃ j l, s = .simple j l) → (withinAll b).flatMap bodies = [] := by
    intro b hb
    induction b with
    | nil => simp [withinAll]
    | cons s ss ih =>
      obtain ⟨j, l, rfl⟩ := hb s List.mem_cons_self
      rw [withinAll, List.flatMap_append, ih fun s hs => hb s (List.mem_cons_of_mem _ hs)]
      simp [within, bodies]
  refine List.eq_nil_iff_forall_not_mem.2 fun ⟨f, r⟩ h => ?_
  have := ((C142_sequences _ _ _ _).1 h).1
  simp [blocksOf, isDef, withinAll, within, bodies, hw b hb] at this

/-- The property fails: nor are cases of `match`, and bodies of asynchronous statements. -/
theorem C142_match_counterexample (name : Str) (tree : Stmt → DupSequence.Tree) (f : Found) (r : DupSequence.Report) (h : f.2.length = 4) :
    (f, r) ∉ fileSequences tree [.other (exInfo 1 9) name [[call 2, call 3, call 4, call 5], [call 6, call 7, call 8, call 9]]] := by
  intro h
  have := ((C142_sequences _ _ _ _).1 h).1
  simp [blocksOf, isDef, isMain, withinAll, withinBodies, within, bodies, call] at this
  subst this
  simp at *

/-- Two functions with the same three lines. -/
def twice : List Stmt := [.func (exInfo 1 4) [call 2, call 3, call 4], .func (exInfo 5 8) [call 6, call 7, call 8]]

/-- One of them is reported. -/
example : ∃ c c', (c, c') ∈ fileBlocks twice ∧ c.last ≥ 4 := by
  have h : ((blocksOf twice).filter fun b => decide (lastLine b.2 - firstLine b.2 + 1 ≥ 3)) =
      [("FunctionDef".toList, [call 2, call 3, call 4]), ("FunctionDef".toList, [call 6, call 7, call 8])] := by
    simp [blocksOf, twice, isDef, withinAll, within, bodies, call, lastLine, firstLine, Stmt.info]
  obtain ⟨e, he, c, c', hc, -, hl⟩ := C142_duplicates_found twice ("FunctionDef".toList, [call 2, call 3, call 4])
    ("FunctionDef".toList, [call 6, call 7, call 8]) (by rw [h]) rfl
    (D := [("2".toList, "6".toList), ("3".toList, "7".toList), ("4".toList, "8".toList)]) (by decide)
    (by simp [NearAll, Near, toTrees, toTree, call, DupBlocks.Fits, DupBlocks.digit])
  refine ⟨c, c', hc, ?_⟩
  simp only [List.mem_cons, List.not_mem_nil, or_false] at he
  rcases he with rfl | rfl <;> simp only [lastLine, call, Stmt.info, List.getLast?_cons_cons, List.getLast?_singleton] at hl <;> omega

/-- The main block is not one of the statements of the file, its body is a block; written the other way round, it is one of them. -/
example : (blocksOf [call 1, .ite ⟨2, 3, [.node (.compare ["==".toList]) [.node (.name "__name__".toList) [], .node (.const 0 "__main__".toList) []]]⟩ [call 3] []]).map
    (fun b => (b.1, b.2.length)) = [("Module".toList, 1), ("If".toList, 1)] := by
  simp [blocksOf, isDef, isMain, isMainTest, withinAll, within, bodies, call]

example : (blocksOf [call 1, .ite ⟨2, 3, [.node (.compare ["==".toList]) [.node (.const 0 "__main__".toList) [], .node (.name "__name__".toList) []]]⟩ [call 3] []]).map
    (fun b => (b.1, b.2.length)) = [("Module".toList, 2), ("If".toList, 1)] := by
  simp [blocksOf, isDef, isMain, isMainTest, withinAll, within, bodies, call]

example : (blocksOf [.ite ⟨2, 3, [.node (.compare ["==".toList]) [.node (.name "x".toList) [], .node (.const 0 "__main__".toList) []]]⟩ [call 3] []]).map
    (fun b => (b.1, b.2.length)) = [("Module".toList, 1), ("If".toList, 1)] := by
  simp [blocksOf, isDef, isMain, isMainTest, withinAll, within, bodies, call]

/-- An `elif` is no block of its own; its bodies are. -/
example : (blocksOf [.ite (exInfo 1 6) [call 2] [.ite (exInfo 3 6) [call 4] [call 6]]]).map (fun b => (b.1, firstLine b.2)) =
    [("Module".toList, 1), ("If".toList, 2), ("If".toList, 4), ("If".toList, 6)] := by
  simp [blocksOf, isDef, isMain, exInfo, withinAll, within, bodies, call, firstLine, Stmt.info]

end Verif.CollectBlocks
