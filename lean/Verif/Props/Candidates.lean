import Verif.Model.Candidates
import Mathlib.Data.List.Basic
import Mathlib.Tactic.ByContra

/-!
C114: which pairs of blocks are compared in search of duplication. C115: how they are put together and which of the groups may be reported.
-/

namespace Verif.Candidates

/-! ### Siblings -/

/-- The statements of a block from one on, up to the first definition or assertion, and without those that are skipped. -/
def following (P : Prog) (n : Node) : List Node := ((rest P n).takeWhile fun x => !x.breaks).filter fun x => !x.skips

theorem siblingsFrom_eq : ∀ l : List Node, siblingsFrom l = (l.takeWhile fun x => !x.breaks).filter fun x => !x.skips
  | [] => rfl
  | n :: l => by
    have ih := siblingsFrom_eq l
    cases h1 : n.breaks <;> cases h2 : n.skips <;> simp [siblingsFrom, h1, h2, ih]

/-- No statement is at two places. -/
def Once (P : Prog) : Prop := P.flatten.Nodup

theorem find_block {P : Prog} {n : Node} (h : n ∈ P.flatten) : ∃ b ∈ P, n ∈ b ∧ P.find? (·.contains n) = some b := by
  obtain ⟨b, hb, hn⟩ := List.mem_flatten.1 h
  have hs : (P.find? (·.contains n)).isSome := List.find?_isSome.2 ⟨b, hb, by simpa using hn⟩
  obtain ⟨c, hc⟩ := Option.isSome_iff_exists.1 hs
  exact ⟨c, List.mem_of_find?_eq_some hc, by simpa using List.find?_some hc, hc⟩

theorem block_unique {P : Prog} (hP : Once P) {n : Node} {b c : List Node} (hb : b ∈ P) (hc : c ∈ P) (h1 : n ∈ b) (h2 : n ∈ c) : b = c := by
  unfold Once at hP
  induction P with
  | nil => cases hb
  | cons d P ih =>
    rw [List.flatten_cons, List.nodup_append] at hP
    obtain ⟨h3, h4, h5⟩ := hP
    rcases List.mem_cons.1 hb with rfl | hb <;> rcases List.mem_cons.1 hc with rfl | hc
    · rfl
    · exact absurd rfl (h5 n h1 n (List.mem_flatten.2 ⟨c, hc, h2⟩))
    · exact absurd rfl (h5 n h2 n (List.mem_flatten.2 ⟨b, ‹_›, h1⟩))
    · exact ih h4 hb hc

theorem dropWhile_ne {b : List Node} {n : Node} (h : n ∈ b) : ∃ l, b = b.takeWhile (· ≠ n) ++ n :: l ∧ b.dropWhile (· ≠ n) = n :: l := by
  induction b with
  | nil => cases h
  | cons a b ih =>
    by_cases ha : a = n
    · subst ha
      exact ⟨b, by simp, by simp⟩
    · rcases List.mem_cons.1 h with rfl | h
      · exact absurd rfl ha
      · obtain ⟨l, h1, h2⟩ := ih h
        refine ⟨l, ?_, by simp only [List.dropWhile_cons]; simpa [ha] using h2⟩
        rw [List.takeWhile_cons]
        simp only [ne_eq, ha, not_false_eq_true, decide_true, if_true, List.cons_append, List.cons.injEq, true_and]
        exact h1

theorem split_unique {p : Node} : ∀ {a b c d : List Node}, p ∉ a → p ∉ c → a ++ p :: b = c ++ p :: d → a = c ∧ b = d
  | [], _, [], _, _, _, h => by simpa using h
  | [], _, x :: c, _, _, h2, h => by simp only [List.nil_append, List.cons_append, List.cons.injEq] at h; simp [h.1] at h2
  | x :: a, _, [], _, h1, _, h => by simp only [List.nil_append, List.cons_append, List.cons.injEq] at h; simp [h.1] at h1
  | x :: a, _, y :: c, _, h1, h2, h => by
    simp only [List.cons_append, List.cons.injEq] at h
    obtain ⟨k1, k2⟩ := split_unique (fun hm => h1 (by simp [hm])) (fun hm => h2 (by simp [hm])) h.2
    exact ⟨by rw [h.1, k1], k2⟩

theorem mem_takeWhile_imp {α : Type} {f : α → Bool} {l : List α} {x : α} (h : x ∈ l.takeWhile f) : f x = true := by
  induction l with
  | nil => cases h
  | cons a l ih =>
    rw [List.takeWhile_cons] at h
    split at h
    · rcases List.mem_cons.1 h with rfl | h
      · assumption
      · exact ih h
    · cases h

/-- A statement begins what follows it in its block. -/
theorem rest_cons {P : Prog} {n : Node} (h : n ∈ P.flatten) : ∃ l, rest P n = n :: l := by
  obtain ⟨b, -, hn, hf⟩ := find_block h
  obtain ⟨l, -, h2⟩ := dropWhile_ne hn
  exact ⟨l, by unfold rest; rw [hf]; exact h2⟩

theorem rest_previous {P : Prog} (hP : Once P) {n p : Node} (h : previous P n = some p) : rest P p = p :: rest P n ∧ p ∈ P.flatten := by
  unfold previous at h
  cases hf : P.find? (·.contains n) with
  | none => simp only [hf] at h; cases h
  | some b =>
    simp only [hf] at h
    have hb : b ∈ P := List.mem_of_find?_eq_some hf
    have hn : n ∈ b := by simpa using List.find?_some hf
    obtain ⟨l, h1, h2⟩ := dropWhile_ne hn
    obtain ⟨pre, hpre⟩ := List.getLast?_eq_some_iff.1 h
    have hp : p ∈ b := by rw [h1, hpre]; simp
    have hpf : p ∈ P.flatten := List.mem_flatten.2 ⟨b, hb, hp⟩
    refine ⟨?_, hpf⟩
    obtain ⟨c, hc, hpc, hfc⟩ := find_block hpf
    obtain rfl := block_unique hP hb hc hp hpc
    unfold rest
    simp only [hf, hfc]
    rw [h2]
    obtain ⟨l', k1, k2⟩ := dropWhile_ne hp
    rw [k2]
    congr 1
    rw [hpre] at h1
    have hnd : b.Nodup := by
      refine hP.sublist ?_
      exact List.sublist_flatten_of_mem hb
    have e1 : b = b.takeWhile (· ≠ p) ++ p :: l' := k1
    have e2 : b = pre ++ p :: (n :: l) := by rw [h1]; simp
    have hpre' : p ∉ pre := by
      intro hm
      rw [e2, List.nodup_append] at hnd
      exact hnd.2.2 p hm p (by simp) rfl
    have hpre2 : p ∉ b.takeWhile (· ≠ p) := by
      intro hm
      have := mem_takeWhile_imp hm
      simp at this
    have e3 : pre ++ p :: (n :: l) = b.takeWhile (· ≠ p) ++ p :: l' := e2.symm.trans e1
    exact ((split_unique hpre' hpre2 e3).2).symm

/-- What is remembered is right. -/
def Memo.Right (P : Prog) (m : Memo) : Prop := ∀ n s, Dict.get? m n = some s → n ∈ P.flatten ∧ included n = true ∧ s = following P n

theorem following_cons {P : Prog} {n : Node} (h : n ∈ P.flatten) (hi : included n = true) : ∃ l, following P n = n :: l := by
  obtain ⟨l, hl⟩ := rest_cons h
  simp only [included, Bool.and_eq_true, Bool.not_eq_eq_eq_not, Bool.not_true] at hi
  refine ⟨(l.takeWhile fun x => !x.breaks).filter fun x => !x.skips, ?_⟩
  unfold following
  rw [hl, List.takeWhile_cons]
  simp only [hi.1, Bool.not_false, if_true, List.filter_cons, hi.2]

/-- **C114**, siblings: what is remembered about the statements does not matter. -/
theorem C114_siblings {P : Prog} (hP : Once P) {m : Memo} (hm : m.Right P) {n : Node} (hn : n ∈ P.flatten) (hi : included n = true) :
    ∃ m', memoized P m n = .ok (m', following P n) ∧ Memo.Right P m' := by
  have hset : ∀ s, s = following P n → Memo.Right P (Dict.set m n s) := by
    intro s hs k t hk
    rw [Dict.get?_set] at hk
    split at hk
    · rename_i e
      cases hk
      exact ⟨e ▸ hn, e ▸ hi, e ▸ hs⟩
    · exact hm k t hk
  unfold memoized
  cases h1 : Dict.get? m n with
  | some s => exact ⟨m, by simp only [(hm n s h1).2.2], hm⟩
  | none =>
    simp only
    cases h2 : (previous P n).bind (Dict.get? m) with
    | some s =>
      obtain ⟨p, hp, hs⟩ := Option.bind_eq_some_iff.1 h2
      obtain ⟨k1, k2, k3⟩ := hm p s hs
      have hr := (rest_previous hP hp).1
      have hs' : s.drop 1 = following P n := by
        rw [k3]
        simp only [included, Bool.and_eq_true, Bool.not_eq_eq_eq_not, Bool.not_true] at k2
        unfold following
        rw [hr, List.takeWhile_cons]
        simp only [k2.1, Bool.not_false, if_true, List.filter_cons, k2.2, List.drop_succ_cons, List.drop_zero]
      exact ⟨_, by simp only [hs'], hset _ hs'⟩
    | none =>
      have hs : siblingsFrom (rest P n) = following P n := siblingsFrom_eq _
      obtain ⟨l, hl⟩ := following_cons hn hi
      refine ⟨Dict.set m n (following P n), ?_, hset _ rfl⟩
      simp only [getSiblings, hs]
      rw [if_pos (by rw [hl]; simp)]

/-- What is asked in turn. -/
def askAll (P : Prog) : Memo → List Node → Except PyErr (List (List Node))
  | _, [] => .ok []
  | m, n :: ns =>
    match memoized P m n with
    | .error e => .error e
    | .ok (m, s) =>
      match askAll P m ns with
      | .error e => .error e
      | .ok l => .ok (s :: l)

/-- **C114**, siblings: asking for statements in any order, any number of times, gives what follows them. -/
theorem C114_memoized {P : Prog} (hP : Once P) (ns : List Node) (hn : ∀ n ∈ ns, n ∈ P.flatten ∧ included n = true) :
    askAll P [] ns = .ok (ns.map (following P)) := by
  suffices ∀ m : Memo, m.Right P → askAll P m ns = .ok (ns.map (following P)) from this [] fun _ _ h => by cases h
  induction ns with
  | nil => intro m _; rfl
  | cons n ns ih =>
    intro m hm
    obtain ⟨m', h1, h2⟩ := C114_siblings hP hm (hn n (by simp)).1 (hn n (by simp)).2
    simp only [askAll, h1, ih (fun n h => hn n (by simp [h])) m' h2, List.map_cons]

/-! ### Pairs of blocks -/

/-- The statements, in the order of the text, from one to another. -/
def between (all : List Node) (a b : Node) : List Node := (all.take (all.idxOf b + 1)).drop (all.idxOf a)

/-- The first `n` statements of two blocks do not overlap, are not just two simple statements, and all statements in them are of the same types. -/
structure Fits (inst : Nat → Nat → Bool) (all : List Node) (fst snd : Node) (as bs : List Node) (n : Nat) : Prop where
  notSmall : n = 1 → fst.small = false ∧ snd.small = false
  apart : ∃ a b, (as.take n).getLast? = some a ∧ (bs.take n).getLast? = some b ∧ a ∈ all ∧ b ∈ all ∧ a.last < snd.first ∧
    ∀ x y, (x, y) ∈ (between all fst a).zip (between all snd b) → inst y.cls x.cls = true

/-- A block and its range. -/
def candidate (all : List Node) (fst : Node) (block : List Node) : Candidate :=
  ⟨all.idxOf fst, all.idxOf (block.getLastD fst) + 1, block⟩

theorem getLastD_of {l : List Node} {a d : Node} (h : l.getLast? = some a) : l.getLastD d = a := by
  rw [List.getLastD_eq_getLast?, h]
  rfl

theorem head_take {as : List Node} {a : Node} (h : as.head? = some a) (n : Nat) : (as.take (n + 1)).head? = some a := by
  cases as with
  | nil => cases h
  | cons b as => simpa using h

theorem last_take {as : List Node} {n : Nat} (h : n + 1 ≤ as.length) : ∃ b, (as.take (n + 1)).getLast? = some b := by
  have hne : as.take (n + 1) ≠ [] := by
    cases as with
    | nil => simp at h
    | cons b as => simp
  exact ⟨_, List.getLast?_eq_some_getLast hne⟩

theorem tryLengths_spec {inst : Nat → Nat → Bool} {all : List Node} {fst snd : Node} {as bs : List Node} (ha : as.head? = some fst) (hb : bs.head? = some snd)
    (hf : fst ∈ all) (hs : snd ∈ all) : ∀ k, k ≤ as.length → k ≤ bs.length → ∃ o, tryLengths inst all fst snd as bs k = .ok o ∧
      (o = none → ∀ n, 1 ≤ n → n ≤ k → ¬ Fits inst all fst snd as bs n) ∧
      ∀ c d, o = some (c, d) → ∃ n, 1 ≤ n ∧ n ≤ k ∧ Fits inst all fst snd as bs n ∧ (∀ n', n < n' → n' ≤ k → ¬ Fits inst all fst snd as bs n') ∧
        c = candidate all fst (as.take n) ∧ d = candidate all snd (bs.take n)
  | 0, _, _ => ⟨none, rfl, fun _ n h1 h2 => by omega, fun _ _ h => by cases h⟩
  | k + 1, hka, hkb => by
    have ih := tryLengths_spec (inst := inst) ha hb hf hs k (by omega) (by omega)
    have hno : ¬ Fits inst all fst snd as bs (k + 1) → tryLengths inst all fst snd as bs (k + 1) = tryLengths inst all fst snd as bs k →
        ∃ o, tryLengths inst all fst snd as bs (k + 1) = .ok o ∧ (o = none → ∀ n, 1 ≤ n → n ≤ k + 1 → ¬ Fits inst all fst snd as bs n) ∧
          ∀ c d, o = some (c, d) → ∃ n, 1 ≤ n ∧ n ≤ k + 1 ∧ Fits inst all fst snd as bs n ∧
            (∀ n', n < n' → n' ≤ k + 1 → ¬ Fits inst all fst snd as bs n') ∧ c = candidate all fst (as.take n) ∧ d = candidate all snd (bs.take n) := by
      intro h1 h2
      obtain ⟨o, k1, k2, k3⟩ := ih
      refine ⟨o, by rw [h2, k1], fun ho n hn hn' => ?_, fun c d ho => ?_⟩
      · rcases Nat.lt_or_ge k n with h | h
        · rw [show n = k + 1 by omega]
          exact h1
        · exact k2 ho n hn h
      · obtain ⟨n, j1, j2, j3, j4, j5⟩ := k3 c d ho
        refine ⟨n, j1, by omega, j3, fun n' hn hn' => ?_, j5⟩
        rcases Nat.lt_or_ge k n' with h | h
        · rw [show n' = k + 1 by omega]
          exact h1
        · exact j4 n' hn h
    by_cases hsm : k = 0 ∧ (fst.small ∨ snd.small)
    · refine ⟨none, by simp [tryLengths, hsm], fun _ n h1 h2 hfit => ?_, fun _ _ h => by cases h⟩
      have := hfit.notSmall (by omega)
      rcases hsm.2 with h | h <;> simp [h] at this
    · obtain ⟨a, hla⟩ := last_take hka
      obtain ⟨b, hlb⟩ := last_take hkb
      have hu : tryLengths inst all fst snd as bs (k + 1) =
          if a ∈ all ∧ b ∈ all ∧ a.last < snd.first ∧ isCandidate inst (between all fst a) (between all snd b) = true then
            .ok (some (candidate all fst (as.take (k + 1)), candidate all snd (bs.take (k + 1))))
          else tryLengths inst all fst snd as bs k := by
        rw [tryLengths, if_neg hsm]
        simp only [stmtRange, head_take ha, head_take hb, hla, hlb, if_pos hf, if_pos hs]
        by_cases h1 : a ∈ all
        · by_cases h2 : b ∈ all
          · simp only [if_pos h1, if_pos h2, overlap, Nat.add_sub_cancel, List.getElem?_idxOf h1, List.getElem?_idxOf hs]
            by_cases h3 : a.last < snd.first
            · simp only [show decide (a.last ≥ snd.first) = false by simpa using h3, h1, h2, h3, true_and]
              simp only [candidate, getLastD_of hla, getLastD_of hlb, between, slice]
              congr
            · simp only [show decide (a.last ≥ snd.first) = true by simpa using h3, h3, false_and, and_false, if_false]
          · simp only [if_pos h1, if_neg h2, overlap, h2, false_and, and_false, if_false]
        · simp only [if_neg h1, overlap, h1, false_and, if_false]
      have hfit : Fits inst all fst snd as bs (k + 1) ↔ a ∈ all ∧ b ∈ all ∧ a.last < snd.first ∧ isCandidate inst (between all fst a) (between all snd b) = true := by
        constructor
        · rintro ⟨-, a', b', e1, e2, h1, h2, h3, h4⟩
          rw [hla] at e1; cases e1
          rw [hlb] at e2; cases e2
          exact ⟨h1, h2, h3, by simpa [isCandidate] using h4⟩
        · rintro ⟨h1, h2, h3, h4⟩
          refine ⟨fun h => ?_, a, b, hla, hlb, h1, h2, h3, by simpa [isCandidate] using h4⟩
          have hk : k = 0 := by omega
          cases e1 : fst.small <;> cases e2 : snd.small <;> simp [hk, e1, e2] at hsm ⊢
      by_cases hc : Fits inst all fst snd as bs (k + 1)
      · rw [if_pos (hfit.1 hc)] at hu
        exact ⟨_, hu, (fun h => nomatch h), (fun c d h => by cases h; exact ⟨k + 1, by omega, Nat.le_refl _, hc, fun n' h1 h2 => by omega, rfl, rfl⟩)⟩
      · rw [if_neg (fun h => hc (hfit.2 h))] at hu
        exact hno hc hu

theorem le_maxLength {inst : Nat → Nat → Bool} : ∀ (as bs : List Node) (k n : Nat),
    n ≤ maxLength inst as bs k ↔ n ≤ k ∧ n ≤ as.length ∧ n ≤ bs.length ∧ ∀ x y, (x, y) ∈ (as.zip bs).take n → inst x.cls y.cls = true
  | _, _, _, 0 => by simp
  | [], _, _, n + 1 => by simp [maxLength]
  | _ :: _, [], _, n + 1 => by simp [maxLength]
  | _ :: _, _ :: _, 0, n + 1 => by simp [maxLength]
  | a :: as, b :: bs, k + 1, n + 1 => by
    have ih := le_maxLength (inst := inst) as bs k n
    simp only [maxLength]
    split
    · rename_i h
      simp only [Nat.add_le_add_iff_right, ih, List.length_cons, List.zip_cons_cons, List.take_succ_cons, List.mem_cons, Prod.mk.injEq]
      constructor
      · rintro ⟨h1, h2, h3, h4⟩
        refine ⟨h1, h2, h3, ?_⟩
        rintro x y (⟨rfl, rfl⟩ | hm)
        · exact h
        · exact h4 x y hm
      · rintro ⟨h1, h2, h3, h4⟩
        exact ⟨h1, h2, h3, fun x y hm => h4 x y (.inr hm)⟩
    · rename_i h
      constructor
      · intro h'; omega
      · rintro ⟨-, -, -, h4⟩
        exact absurd (h4 a b (by simp)) h

/-- The statements are listed in the order in which they begin, each once; each is in the program and may be compared. -/
structure Listed (P : Prog) (all : List Node) : Prop where
  once : all.Nodup
  inProg : ∀ n ∈ all, n ∈ P.flatten ∧ included n = true
  order : all.Pairwise fun a b => a.first ≤ b.first

/-- The blocks of `n` statements from `fst` and from `snd` on may be compared: `snd` begins after `fst` ends, both have so many statements, there are so
many from the one to the other, the types are the same, and they fit. -/
structure Comparable (P : Prog) (inst : Nat → Nat → Bool) (all : List Node) (i : Nat) (fst : Node) (j : Nat) (snd : Node) (n : Nat) : Prop where
  later : i < j
  after : fst.last < snd.first
  pos : 1 ≤ n
  far : n ≤ j - i
  enough : n ≤ (following P fst).length ∧ n ≤ (following P snd).length
  types : ∀ x y, (x, y) ∈ ((following P fst).zip (following P snd)).take n → inst x.cls y.cls = true
  fits : Fits inst all fst snd (following P fst) (following P snd) n

theorem mem_candidateSnd {P : Prog} {all : List Node} (hall : Listed P all) {i : Nat} {fst : Node} {j : Nat} {snd : Node} :
    (j, snd) ∈ candidateSnd all i fst ↔ i < j ∧ all[j]? = some snd ∧ fst.last < snd.first := by
  have hmem : ∀ j snd, (j, snd) ∈ (all.zipIdx.map fun x => (x.2, x.1)).drop (i + 1) ↔ i < j ∧ all[j]? = some snd := by
    intro j snd
    rw [List.mem_drop_iff_getElem]
    constructor
    · rintro ⟨k, hk, h⟩
      simp only [List.getElem_map, List.getElem_zipIdx, Prod.mk.injEq] at h
      obtain ⟨h1, h2⟩ := h
      have : j = i + 1 + k := by omega
      subst this
      refine ⟨by omega, ?_⟩
      rw [List.getElem?_eq_getElem (by simp at hk; omega)]
      simpa using h2
    · rintro ⟨h1, h2⟩
      obtain ⟨hl, he⟩ := List.getElem?_eq_some_iff.1 h2
      refine ⟨j - (i + 1), by simp; omega, ?_⟩
      simp only [List.getElem_map, List.getElem_zipIdx, Prod.mk.injEq]
      have : i + 1 + (j - (i + 1)) = j := by omega
      simp only [this, he, Nat.zero_add, and_self]
  have hsort : ((all.zipIdx.map fun x => (x.2, x.1)).drop (i + 1)).Pairwise fun x y => x.2.first ≤ y.2.first := by
    refine List.Pairwise.sublist (List.drop_sublist _ _) ?_
    have : (all.zipIdx.map fun x => x.1).Pairwise fun a b => a.first ≤ b.first := by simpa using hall.order
    rw [List.pairwise_map] at this ⊢
    exact this
  rw [← and_assoc, ← hmem j snd]
  unfold candidateSnd
  generalize (all.zipIdx.map fun x => (x.2, x.1)).drop (i + 1) = l at hsort
  clear hmem
  induction l with
  | nil => simp
  | cons x l ih =>
    rw [List.dropWhile_cons]
    rw [List.pairwise_cons] at hsort
    split
    · rename_i hx
      refine (ih hsort.2).trans ?_
      rw [List.mem_cons]
      have hx' : x.2.first ≤ fst.last := by simpa using hx
      constructor
      · rintro ⟨h1, h2⟩; exact ⟨.inr h1, h2⟩
      · rintro ⟨rfl | h1, h2⟩
        · exact absurd hx' (by simpa using h2)
        · exact ⟨h1, h2⟩
    · rename_i hx
      have hx' : fst.last < x.2.first := by simpa using hx
      constructor
      · intro h
        refine ⟨h, ?_⟩
        rcases List.mem_cons.1 h with rfl | h
        · exact hx'
        · exact Nat.lt_of_lt_of_le hx' (hsort.1 _ h)
      · exact fun h => h.1

theorem pairsWith_spec {P : Prog} (hP : Once P) {inst : Nat → Nat → Bool} {all : List Node} (hall : Listed P all) {i : Nat} {fst : Node} (hf : fst ∈ all) :
    ∀ (js : List (Nat × Node)), (∀ x ∈ js, i < x.1 ∧ all[x.1]? = some x.2 ∧ fst.last < x.2.first) → ∀ m : Memo, m.Right P →
      ∃ m' cs, pairsWith P inst all i fst (following P fst) m js = .ok (m', cs) ∧ Memo.Right P m' ∧ ∀ c d, (c, d) ∈ cs ↔
        ∃ j snd n, (j, snd) ∈ js ∧ Comparable P inst all i fst j snd n ∧ (∀ n', Comparable P inst all i fst j snd n' → n' ≤ n) ∧
          c = candidate all fst ((following P fst).take n) ∧ d = candidate all snd ((following P snd).take n)
  | [], _, m, hm => ⟨m, [], rfl, hm, fun c d => by simp⟩
  | (j, snd) :: js, hjs, m, hm => by
    obtain ⟨h1, h2, h3⟩ := hjs (j, snd) (by simp)
    have hsm : snd ∈ all := List.mem_of_getElem? h2
    obtain ⟨m1, e1, hm1⟩ := C114_siblings hP hm (hall.inProg snd hsm).1 (hall.inProg snd hsm).2
    obtain ⟨m2, cs, e2, hm2, ih⟩ := pairsWith_spec hP (inst := inst) hall hf js (fun x hx => hjs x (by simp [hx])) m1 hm1
    obtain ⟨la, ea⟩ := following_cons (hall.inProg fst hf).1 (hall.inProg fst hf).2
    obtain ⟨lb, eb⟩ := following_cons (hall.inProg snd hsm).1 (hall.inProg snd hsm).2
    have hmax := le_maxLength (inst := inst) (following P fst) (following P snd) (j - i)
    obtain ⟨k1, k2, k3, -⟩ := (hmax _).1 (Nat.le_refl _)
    obtain ⟨o, e3, ho1, ho2⟩ := tryLengths_spec (inst := inst) (by rw [ea]; rfl) (by rw [eb]; rfl) hf hsm _ k2 k3
    have hcomp : ∀ n, Comparable P inst all i fst j snd n ↔
        1 ≤ n ∧ n ≤ maxLength inst (following P fst) (following P snd) (j - i) ∧ Fits inst all fst snd (following P fst) (following P snd) n := by
      intro n
      constructor
      · intro h
        exact ⟨h.pos, (hmax n).2 ⟨h.far, h.enough.1, h.enough.2, h.types⟩, h.fits⟩
      · rintro ⟨g1, g2, g3⟩
        obtain ⟨g4, g5, g6, g7⟩ := (hmax n).1 g2
        exact ⟨h1, h3, g1, g4, ⟨g5, g6⟩, g7, g3⟩
    refine ⟨m2, o.toList ++ cs, by simp only [pairsWith, e1, e3, e2], hm2, fun c d => ?_⟩
    rw [List.mem_append, ih]
    constructor
    · rintro (h | ⟨j', snd', n, g1, g2⟩)
      · rw [Option.mem_toList] at h
        obtain ⟨n, g1, g2, g3, g4, g5⟩ := ho2 c d h
        refine ⟨j, snd, n, by simp, (hcomp n).2 ⟨g1, g2, g3⟩, fun n' hn' => ?_, g5⟩
        obtain ⟨-, f2, f3⟩ := (hcomp n').1 hn'
        by_contra hlt
        exact g4 n' (by omega) f2 f3
      · exact ⟨j', snd', n, by simp [g1], g2⟩
    · rintro ⟨j', snd', n, g1, g2, g3, g4, g5⟩
      rcases List.mem_cons.1 g1 with e | g1
      · cases e
        obtain ⟨f1, f2, f3⟩ := (hcomp n).1 g2
        left
        rw [Option.mem_toList]
        cases ho : o with
        | none => exact absurd f3 (ho1 ho n f1 f2)
        | some cd =>
          obtain ⟨c', d'⟩ := cd
          obtain ⟨n', b1, b2, b3, b4, b5, b6⟩ := ho2 c' d' ho
          have : n' = n := by
            have := g3 n' ((hcomp n').2 ⟨b1, b2, b3⟩)
            rcases Nat.lt_or_ge n' n with h | h
            · exact absurd f3 (b4 n h f2)
            · omega
          rw [g4, g5, b5, b6, this]
      · exact .inr ⟨j', snd', n, g1, g2, g3, g4, g5⟩

/-- **C114**: a pair of blocks is yielded for a statement if and only if they are the longest blocks from it and from one that begins after it ends
that may be compared. -/
theorem C114_pairs {P : Prog} (hP : Once P) {inst : Nat → Nat → Bool} {all : List Node} (hall : Listed P all) {i : Nat} {fst : Node}
    (hi : all[i]? = some fst) {m : Memo} (hm : m.Right P) : ∃ m' cs, pairs P inst all m i fst = .ok (m', cs) ∧ Memo.Right P m' ∧ ∀ c d, (c, d) ∈ cs ↔
      ∃ j snd n, all[j]? = some snd ∧ Comparable P inst all i fst j snd n ∧ (∀ n', Comparable P inst all i fst j snd n' → n' ≤ n) ∧
        c = candidate all fst ((following P fst).take n) ∧ d = candidate all snd ((following P snd).take n) := by
  have hf : fst ∈ all := List.mem_of_getElem? hi
  obtain ⟨m1, e1, hm1⟩ := C114_siblings hP hm (hall.inProg fst hf).1 (hall.inProg fst hf).2
  obtain ⟨m2, cs, e2, hm2, h⟩ := pairsWith_spec hP (inst := inst) hall hf (candidateSnd all i fst) (fun x hx => (mem_candidateSnd hall).1 hx) m1 hm1
  refine ⟨m2, cs, by simp only [pairs, e1, e2], hm2, fun c d => ?_⟩
  rw [h]
  constructor
  · rintro ⟨j, snd, n, h1, h2⟩
    exact ⟨j, snd, n, ((mem_candidateSnd hall).1 h1).2.1, h2⟩
  · rintro ⟨j, snd, n, h1, h2⟩
    exact ⟨j, snd, n, (mem_candidateSnd hall).2 ⟨h2.1.later, h1, h2.1.after⟩, h2⟩

/-- The statements of a block begin and end in order. -/
def InOrder (P : Prog) : Prop := ∀ b ∈ P, b.Pairwise fun x y => x.first ≤ y.first ∧ x.last ≤ y.last

theorem rest_suffix {P : Prog} {n : Node} (h : n ∈ P.flatten) : ∃ b ∈ P, ∃ l, b = l ++ rest P n := by
  obtain ⟨b, hb, hn, hf⟩ := find_block h
  refine ⟨b, hb, b.takeWhile (· ≠ n), ?_⟩
  unfold rest
  rw [hf]
  exact (List.takeWhile_append_dropWhile).symm

theorem following_order {P : Prog} (ho : InOrder P) {n : Node} (h : n ∈ P.flatten) :
    (following P n).Pairwise fun x y => x.first ≤ y.first ∧ x.last ≤ y.last := by
  obtain ⟨b, hb, l, hl⟩ := rest_suffix h
  have := ho b hb
  rw [hl, List.pairwise_append] at this
  exact ((this.2.1).sublist (List.takeWhile_sublist _)).sublist List.filter_sublist

/-- **C114**: blocks that are compared have the same number of statements, these are of the same types, those of the first end before those of
the second begin, and if there is only one then it is compound. -/
theorem C114_apart {P : Prog} (hP : Once P) (ho : InOrder P) {inst : Nat → Nat → Bool} {all : List Node} (hall : Listed P all) {i : Nat} {fst : Node}
    (hi : all[i]? = some fst) {m m' : Memo} (hm : m.Right P) {cs : List (Candidate × Candidate)} (h : pairs P inst all m i fst = .ok (m', cs))
    {c d : Candidate} (hc : (c, d) ∈ cs) :
    c.block.length = d.block.length ∧ c.block.head? = some fst ∧ (∀ x y, (x, y) ∈ c.block.zip d.block → inst x.cls y.cls = true) ∧
      (∀ x ∈ c.block, ∀ y ∈ d.block, x.last < y.first) ∧ ∀ x, c.block = [x] → x.small = false := by
  obtain ⟨m2, cs2, e, -, hcs⟩ := C114_pairs hP (inst := inst) hall hi hm
  rw [h] at e
  cases e
  obtain ⟨j, snd, n, h1, h2, -, rfl, rfl⟩ := (hcs c d).1 hc
  have hf : fst ∈ all := List.mem_of_getElem? hi
  have hs : snd ∈ all := List.mem_of_getElem? h1
  obtain ⟨la, ea⟩ := following_cons (hall.inProg fst hf).1 (hall.inProg fst hf).2
  obtain ⟨lb, eb⟩ := following_cons (hall.inProg snd hs).1 (hall.inProg snd hs).2
  have hpos := h2.pos
  have hen := h2.enough
  obtain ⟨k, rfl⟩ : ∃ k, n = k + 1 := ⟨n - 1, by omega⟩
  simp only [candidate]
  refine ⟨by simp; omega, by rw [ea]; rfl, fun x y hxy => h2.types x y ?_, fun x hx y hy => ?_, fun x hx => ?_⟩
  · rw [List.zip_eq_zipWith, List.take_zipWith]
    exact hxy
  · obtain ⟨a, b, g1, g2, -, -, g5, -⟩ := h2.fits.apart
    have o1 := (following_order ho (hall.inProg fst hf).1).sublist (List.take_sublist (k + 1) _)
    have o2 := (following_order ho (hall.inProg snd hs).1).sublist (List.take_sublist (k + 1) _)
    have hxa : x.last ≤ a.last := by
      obtain ⟨ini, hini⟩ := List.getLast?_eq_some_iff.1 g1
      rw [hini] at hx o1
      rw [List.pairwise_append] at o1
      rcases List.mem_append.1 hx with hx | hx
      · exact (o1.2.2 x hx a (by simp)).2
      · rw [List.mem_singleton.1 hx]; exact Nat.le_refl _
    have hsy : snd.first ≤ y.first := by
      rw [eb, List.take_succ_cons] at hy o2
      rw [List.pairwise_cons] at o2
      rcases List.mem_cons.1 hy with rfl | hy
      · exact Nat.le_refl _
      · exact (o2.1 y hy).1
    omega
  · have hk : k = 0 := by
      have := congrArg List.length hx
      rw [List.length_take] at this
      simp at this
      omega
    subst hk
    rw [ea] at hx
    cases hx
    exact (h2.fits.notSmall rfl).1

/-! ### Groups of blocks -/

/-- The blocks with the same number are related, the numbers are smaller than how many blocks there are, and all blocks are good. -/
structure Grouped (good : Candidate → Prop) (rel : Candidate → Candidate → Prop) (ids : Ids) : Prop where
  once : (Dict.keys ids).Nodup
  small : ∀ c v, Dict.get? ids c = some v → v < ids.length
  good : ∀ c v, Dict.get? ids c = some v → good c
  rel : ∀ c d v, Dict.get? ids c = some v → Dict.get? ids d = some v → rel c d

theorem length_set {κ ν : Type} [DecidableEq κ] (d : Dict κ ν) (k : κ) (v : ν) : d.length ≤ (Dict.set d k v).length ∧ (Dict.get? d k = none → d.length < (Dict.set d k v).length) := by
  have e : ∀ d : Dict κ ν, d.length = (Dict.keys d).length := fun d => by simp [Dict.keys]
  rw [e, e]
  by_cases h : k ∈ Dict.keys d
  · rw [Dict.keys_set_of_mem d v h]
    exact ⟨Nat.le_refl _, fun hn => absurd h ((Dict.get?_eq_none_iff d k).1 hn)⟩
  · rw [Dict.keys_set_of_not_mem d v h]
    simp

theorem Grouped.add {good : Candidate → Prop} {rel : Candidate → Candidate → Prop} (hrel : Equivalence rel) {ids : Ids} (h : Grouped good rel ids)
    {c d : Candidate} (hc : good c) (hd : good d) (hcd : rel c d) : Grouped good rel (addPair ids (c, d)) := by
  have hget : ∀ k, Dict.get? (addPair ids (c, d)) k =
      if k = d then some ((Dict.get? ids c).getD ids.length) else if k = c then some ((Dict.get? ids c).getD ids.length) else Dict.get? ids k := by
    intro k
    unfold addPair
    simp only [Dict.get?_set]
  have hlen : ids.length ≤ (addPair ids (c, d)).length ∧ (Dict.get? ids c = none → ids.length < (addPair ids (c, d)).length) := by
    unfold addPair
    obtain ⟨h1, h2⟩ := length_set ids c ((Dict.get? ids c).getD ids.length)
    obtain ⟨h3, -⟩ := length_set (Dict.set ids c ((Dict.get? ids c).getD ids.length)) d ((Dict.get? ids c).getD ids.length)
    exact ⟨Nat.le_trans h1 h3, fun hn => Nat.lt_of_lt_of_le (h2 hn) h3⟩
  have hid : (Dict.get? ids c).getD ids.length < (addPair ids (c, d)).length := by
    cases hg : Dict.get? ids c with
    | none => exact hlen.2 hg
    | some v => exact Nat.lt_of_lt_of_le (h.small c v hg) hlen.1
  have hold : ∀ k v, Dict.get? ids k = some v → v = (Dict.get? ids c).getD ids.length → rel c k := by
    intro k v hk hv
    cases hg : Dict.get? ids c with
    | none =>
      rw [hg] at hv
      have := h.small k v hk
      simp only [Option.getD_none] at hv
      omega
    | some w =>
      rw [hg] at hv
      simp only [Option.getD_some] at hv
      subst hv
      exact h.rel c k v hg hk
  refine ⟨?_, fun k v hk => ?_, fun k v hk => ?_, fun k l v hk hl => ?_⟩
  · exact Dict.nodup_keys_set _ _ _ (Dict.nodup_keys_set _ _ _ h.once)
  · rw [hget] at hk
    split at hk
    · cases hk; exact hid
    · split at hk
      · cases hk; exact hid
      · exact Nat.lt_of_lt_of_le (h.small k v hk) hlen.1
  · rw [hget] at hk
    split at hk
    · rename_i e; exact e ▸ hd
    · split at hk
      · rename_i e; exact e ▸ hc
      · exact h.good k v hk
  · have key : ∀ k, Dict.get? (addPair ids (c, d)) k = some v → (v = (Dict.get? ids c).getD ids.length ∧ rel c k) ∨
        (v ≠ (Dict.get? ids c).getD ids.length ∧ Dict.get? ids k = some v) := by
      intro k hk
      rw [hget] at hk
      split at hk
      · rename_i e; cases hk; exact .inl ⟨rfl, e ▸ hcd⟩
      · split at hk
        · rename_i e; cases hk; exact .inl ⟨rfl, e ▸ hrel.refl c⟩
        · by_cases hv : v = (Dict.get? ids c).getD ids.length
          · exact .inl ⟨hv, hold k v hk hv⟩
          · exact .inr ⟨hv, hk⟩
    rcases key k hk with ⟨e1, h1⟩ | ⟨e1, h1⟩ <;> rcases key l hl with ⟨e2, h2⟩ | ⟨e2, h2⟩
    · exact hrel.trans (hrel.symm h1) h2
    · exact absurd e1 e2
    · exact absurd e2 e1
    · exact h.rel k l v h1 h2

theorem Grouped.addAll {good : Candidate → Prop} {rel : Candidate → Candidate → Prop} (hrel : Equivalence rel) :
    ∀ (cs : List (Candidate × Candidate)) {ids : Ids}, Grouped good rel ids → (∀ c d, (c, d) ∈ cs → good c ∧ good d ∧ rel c d) →
      Grouped good rel (cs.foldl addPair ids)
  | [], _, h, _ => h
  | (c, d) :: cs, ids, h, hcs => by
    obtain ⟨h1, h2, h3⟩ := hcs c d (by simp)
    exact Grouped.addAll hrel cs (h.add hrel h1 h2 h3) fun c d hm => hcs c d (by simp [hm])

/-- The candidate is one of the statements with some that follow it. -/
def IsBlock (P : Prog) (all : List Node) (c : Candidate) : Prop :=
  ∃ fst ∈ all, ∃ n, 1 ≤ n ∧ n ≤ (following P fst).length ∧ c = candidate all fst ((following P fst).take n)

theorem collect_spec {P : Prog} (hP : Once P) {inst : Nat → Nat → Bool} {K : Checks} {all : List Node} (hall : Listed P all)
    {rel : Candidate → Candidate → Prop} (hrel : Equivalence rel)
    (hr : ∀ i fst, all[i]? = some fst → ∀ j snd n, all[j]? = some snd → Comparable P inst all i fst j snd n →
      rel (candidate all fst ((following P fst).take n)) (candidate all snd ((following P snd).take n))) :
    ∀ (ns : List (Nat × Node)), (∀ x ∈ ns, all[x.1]? = some x.2) → ∀ (m : Memo), m.Right P → ∀ (dup : List Node) (ids : Ids), Grouped (IsBlock P all) rel ids →
      ∃ dup' ids', collect P inst K all ns m dup ids = .ok (dup', ids') ∧ Grouped (IsBlock P all) rel ids'
  | [], _, _, _, dup, ids, h => ⟨dup, ids, rfl, h⟩
  | (i, fst) :: ns, hns, m, hm, dup, ids, h => by
    have ih := collect_spec hP (K := K) hall hrel hr ns (fun x hx => hns x (by simp [hx]))
    have hi : all[i]? = some fst := hns (i, fst) (by simp)
    have hf : fst ∈ all := List.mem_of_getElem? hi
    obtain ⟨m1, e1, hm1⟩ := C114_siblings hP hm (hall.inProg fst hf).1 (hall.inProg fst hf).2
    unfold collect
    split
    · exact ih m hm dup ids h
    · simp only [e1]
      split
      · exact ih m1 hm1 _ ids h
      · split
        · exact ih m1 hm1 _ ids h
        · obtain ⟨m2, cs, e2, hm2, hcs⟩ := C114_pairs hP (inst := inst) hall hi hm1
          simp only [e2]
          refine ih m2 hm2 dup _ (h.addAll hrel cs fun c d hcd => ?_)
          obtain ⟨j, snd, n, h1, h2, -, rfl, rfl⟩ := (hcs c d).1 hcd
          exact ⟨⟨fst, hf, n, h2.pos, h2.enough.1, rfl⟩, ⟨snd, List.mem_of_getElem? h1, n, h2.pos, h2.enough.2, rfl⟩, hr i fst hi j snd n h1 h2⟩

theorem flipped_get (ids : Ids) (v : Nat) :
    Dict.get? (flipped ids) v = if (ids.filter (·.2 = v)) = [] then none else some ((ids.filter (·.2 = v)).map (·.1)) := by
  suffices ∀ (ids : Ids) (d : Dict Nat (List Candidate)),
      Dict.get? (ids.foldl (fun d c => Dict.set d c.2 ((Dict.get? d c.2).getD [] ++ [c.1])) d) v =
        if (ids.filter (·.2 = v)) = [] then Dict.get? d v else some ((Dict.get? d v).getD [] ++ (ids.filter (·.2 = v)).map (·.1)) by
    have := this ids []
    simpa [flipped, Dict.get?] using this
  intro ids
  induction ids with
  | nil => intro d; simp
  | cons c ids ih =>
    intro d
    rw [List.foldl_cons, ih, Dict.get?_set]
    by_cases h : c.2 = v
    · subst h
      by_cases he : ids.filter (·.2 = c.2) = []
      · simp [he]
      · simp [he]
    · have h' : ¬ v = c.2 := fun e => h e.symm
      rw [List.filter_cons_of_neg (by simpa using h), if_neg h']

theorem flipped_nodup (ids : Ids) : (Dict.keys (flipped ids)).Nodup := by
  suffices ∀ (ids : Ids) (d : Dict Nat (List Candidate)), (Dict.keys d).Nodup →
      (Dict.keys (ids.foldl (fun d c => Dict.set d c.2 ((Dict.get? d c.2).getD [] ++ [c.1])) d)).Nodup from this ids [] (by simp [Dict.keys])
  intro ids
  induction ids with
  | nil => intro d h; exact h
  | cons c ids ih => intro d h; exact ih _ (Dict.nodup_keys_set _ _ _ h)

theorem insertBy_perm {α : Type} (le : α → α → Bool) (x : α) : ∀ l, (insertBy le x l).Perm (x :: l)
  | [] => .refl _
  | y :: l => by
    unfold insertBy
    split
    · exact .refl _
    · exact ((insertBy_perm le x l).cons y).trans (.swap x y l)

theorem sortBy_perm {α : Type} (le : α → α → Bool) : ∀ l : List α, (sortBy le l).Perm l
  | [] => .refl _
  | x :: l => (insertBy_perm le x _).trans ((sortBy_perm le l).cons x)

theorem insertBy_pairwise {α : Type} {le : α → α → Bool} (ht : ∀ a b c, le a b = true → le b c = true → le a c = true)
    (hto : ∀ a b, le a b = true ∨ le b a = true) (x : α) : ∀ l : List α, l.Pairwise (fun a b => le a b = true) → (insertBy le x l).Pairwise fun a b => le a b = true
  | [], _ => by simp [insertBy]
  | y :: l, h => by
    rw [List.pairwise_cons] at h
    unfold insertBy
    split
    · rename_i hxy
      refine List.pairwise_cons.2 ⟨fun z hz => ?_, List.pairwise_cons.2 h⟩
      rcases List.mem_cons.1 hz with rfl | hz
      · exact hxy
      · exact ht _ _ _ hxy (h.1 z hz)
    · rename_i hxy
      refine List.pairwise_cons.2 ⟨fun z hz => ?_, insertBy_pairwise ht hto x l h.2⟩
      rcases List.mem_cons.1 ((insertBy_perm le x l).subset hz) with rfl | hz
      · exact (hto z y).resolve_left hxy
      · exact h.1 z hz

theorem sortBy_pairwise {α : Type} {le : α → α → Bool} (ht : ∀ a b c, le a b = true → le b c = true → le a c = true)
    (hto : ∀ a b, le a b = true ∨ le b a = true) : ∀ l : List α, (sortBy le l).Pairwise fun a b => le a b = true
  | [] => by simp [sortBy]
  | x :: l => insertBy_pairwise ht hto x _ (sortBy_pairwise ht hto l)

theorem mem_ordered {ids : Ids} (h : (Dict.keys ids).Nodup) {g : List Candidate} (hg : g ∈ ordered ids) :
    ∃ v, (∀ c, c ∈ g ↔ Dict.get? ids c = some v) ∧ g.Nodup ∧ g.Pairwise (fun a b => before a b = true) := by
  unfold ordered at hg
  rw [(sortBy_perm _ _).mem_iff, List.mem_map] at hg
  obtain ⟨⟨v, l⟩, hl, rfl⟩ := hg
  have hget := Dict.get?_of_mem_nodup hl (flipped_nodup ids)
  rw [flipped_get] at hget
  split at hget
  · cases hget
  · cases hget
    have hnd : ((ids.filter (·.2 = v)).map (·.1)).Nodup := by
      refine h.sublist ?_
      exact (List.filter_sublist).map _
    refine ⟨v, fun c => ?_, (sortBy_perm _ _).nodup_iff.2 hnd, ?_⟩
    · rw [(sortBy_perm _ _).mem_iff, List.mem_map]
      constructor
      · rintro ⟨x, hx, rfl⟩
        rw [List.mem_filter] at hx
        obtain ⟨h1, h2⟩ := hx
        have h2' : x.2 = v := by simpa using h2
        exact Dict.get?_of_mem_nodup (h2' ▸ h1) h
      · intro hc
        exact ⟨(c, v), List.mem_filter.2 ⟨Dict.mem_of_get? hc, by simp⟩, rfl⟩
    · refine sortBy_pairwise ?_ ?_ _
      · intro a b c hab hbc
        simp only [before, decide_eq_true_eq] at *
        omega
      · intro a b
        simp only [before, decide_eq_true_eq]
        omega

theorem mem_report {P : Prog} {inst : Nat → Nat → Bool} {above : Node → List Node} {inside : List Node → List Node} {similar : List (List Node) → Bool} :
    ∀ {gs : List (List Candidate)} {dup : List Node} {bs : List (List Node)}, bs ∈ report P inst above inside similar dup gs →
      ∃ g ∈ gs, bs = g.map (·.block) ∧ mayBeLoop P g = false ∧ ofOne P inst above bs = false ∧ similar bs = true ∧
        ∀ x, bs.head?.bind List.head? = some x → x ∉ dup
  | [], _, _, h => by cases h
  | g :: gs, dup, bs, h => by
    have hrec : ∀ dup', (∀ x ∈ dup, x ∈ dup') → bs ∈ report P inst above inside similar dup' gs →
        ∃ g' ∈ g :: gs, bs = g'.map (·.block) ∧ mayBeLoop P g' = false ∧ ofOne P inst above bs = false ∧ similar bs = true ∧
          ∀ x, bs.head?.bind List.head? = some x → x ∉ dup := by
      intro dup' hsub h
      obtain ⟨g', h1, h2, h3, h4, h5, h6⟩ := mem_report h
      exact ⟨g', by simp [h1], h2, h3, h4, h5, fun x hx hm => h6 x hx (hsub x hm)⟩
    unfold report at h
    simp only at h
    split at h
    · exact hrec dup (fun _ h => h) h
    · rename_i h1
      split at h
      · exact hrec dup (fun _ h => h) h
      · rename_i h2
        split at h
        · exact hrec dup (fun _ h => h) h
        · rename_i h3
          split at h
          · rename_i h4
            rcases List.mem_cons.1 h with rfl | h
            · refine ⟨g, by simp, rfl, by simpa using h1, by simpa using h3, h4, fun x hx hm => h2 ?_⟩
              rw [hx]
              simpa using hm
            · exact hrec _ (fun x hx => by simp [hx]) h
          · exact hrec dup (fun _ h => h) h

theorem visit_spec {P : Prog} (hP : Once P) {inst : Nat → Nat → Bool} {above : Node → List Node} {K : Checks} {similar : List (List Node) → Bool}
    {all : List Node} (hall : Listed P all) {rel : Candidate → Candidate → Prop} (hrel : Equivalence rel)
    (hr : ∀ i fst, all[i]? = some fst → ∀ j snd n, all[j]? = some snd → Comparable P inst all i fst j snd n →
      rel (candidate all fst ((following P fst).take n)) (candidate all snd ((following P snd).take n))) :
    ∃ dup ids, Grouped (IsBlock P all) rel ids ∧ visit P inst above K similar all = .ok (report P inst above K.inside similar dup (ordered ids)) := by
  obtain ⟨dup, ids, h1, h2⟩ := collect_spec hP (inst := inst) (K := K) hall hrel hr (all.zipIdx.map fun x => (x.2, x.1)) (fun x hx => by
      obtain ⟨y, hy, rfl⟩ := List.mem_map.1 hx
      obtain ⟨a, i⟩ := y
      simpa using List.mem_zipIdx_iff_getElem?.1 hy) [] (fun _ _ h => by cases h) [] []
    ⟨by simp [Dict.keys], (fun _ _ h => nomatch h), (fun _ _ h => nomatch h), (fun _ _ _ h => nomatch h)⟩
  exact ⟨dup, ids, h2, by simp only [visit, h1]⟩

theorem comparable_length {P : Prog} {inst : Nat → Nat → Bool} {all : List Node} {i j n : Nat} {fst snd : Node} (h : Comparable P inst all i fst j snd n) :
    ((following P fst).take n).length = ((following P snd).take n).length := by
  have := h.enough
  simp only [List.length_take]
  omega

/-- **C115**: nothing raises. -/
theorem C115_no_exception {P : Prog} (hP : Once P) (inst : Nat → Nat → Bool) (above : Node → List Node) (K : Checks) (similar : List (List Node) → Bool)
    {all : List Node} (hall : Listed P all) : ∃ r, visit P inst above K similar all = .ok r := by
  obtain ⟨_, _, -, h⟩ := visit_spec hP (inst := inst) (above := above) (K := K) (similar := similar) hall (rel := fun _ _ => True)
    ⟨fun _ => trivial, fun _ => trivial, fun _ _ => trivial⟩ fun _ _ _ _ _ _ _ _ => trivial
  exact ⟨_, h⟩

theorem head_index {P : Prog} {all : List Node} (hall : Listed P all) {c : Candidate} (h : IsBlock P all c) :
    ∃ x ∈ all, c.block.head? = some x ∧ c.start = all.idxOf x ∧ c.block = (following P x).take c.block.length ∧ c.block ≠ [] ∧
      c = candidate all x ((following P x).take c.block.length) := by
  obtain ⟨x, hx, n, h1, h2, rfl⟩ := h
  obtain ⟨l, hl⟩ := following_cons (hall.inProg x hx).1 (hall.inProg x hx).2
  obtain ⟨k, rfl⟩ : ∃ k, n = k + 1 := ⟨n - 1, by omega⟩
  have hlen : ((following P x).take (k + 1)).length = k + 1 := by simp only [List.length_take]; omega
  refine ⟨x, hx, by simp only [candidate]; rw [hl]; rfl, rfl, ?_, ?_, ?_⟩
  · simp only [candidate, hlen]
  · simp only [candidate]
    rw [hl]
    simp
  · simp only [candidate, hlen]

/-- **C115**: the blocks that are reported together are at least two, have the same number of statements, each of them is a statement with some that
follow it, and they begin in the order of the text. -/
theorem C115_blocks {P : Prog} (hP : Once P) {inst : Nat → Nat → Bool} {above : Node → List Node} {K : Checks} {similar : List (List Node) → Bool}
    {all : List Node} (hall : Listed P all) {r : List (List (List Node))} (h : visit P inst above K similar all = .ok r) {bs : List (List Node)} (hb : bs ∈ r) :
    2 ≤ bs.length ∧ similar bs = true ∧ (∀ b ∈ bs, b ≠ [] ∧ ∃ x ∈ all, b = (following P x).take b.length) ∧ (∀ b ∈ bs, ∀ c ∈ bs, b.length = c.length) ∧
      bs.Pairwise fun b c => ∀ x y, b.head? = some x → c.head? = some y → all.idxOf x < all.idxOf y := by
  obtain ⟨dup, ids, hg, e⟩ := visit_spec hP (inst := inst) (above := above) (K := K) (similar := similar) hall
    (rel := fun c d => c.block.length = d.block.length) ⟨fun _ => rfl, fun h => h.symm, fun h h' => h.trans h'⟩
    fun _ _ _ _ _ _ _ h => comparable_length h
  rw [h] at e
  cases e
  obtain ⟨g, hgo, rfl, hl, -, hs, -⟩ := mem_report hb
  obtain ⟨v, h1, h2, h3⟩ := mem_ordered hg.once hgo
  refine ⟨?_, hs, fun b hb => ?_, fun b hb c hc => ?_, ?_⟩
  · rcases g with _ | ⟨a, _ | ⟨b, g⟩⟩
    · simp [mayBeLoop] at hl
    · simp [mayBeLoop] at hl
    · simp
  · obtain ⟨c, hc, rfl⟩ := List.mem_map.1 hb
    obtain ⟨x, hx, -, -, k1, k2, -⟩ := head_index hall (hg.good c v ((h1 c).1 hc))
    exact ⟨k2, x, hx, k1⟩
  · obtain ⟨c1, hc1, rfl⟩ := List.mem_map.1 hb
    obtain ⟨c2, hc2, rfl⟩ := List.mem_map.1 hc
    exact hg.rel c1 c2 v ((h1 c1).1 hc1) ((h1 c2).1 hc2)
  · rw [List.pairwise_map]
    have hboth : g.Pairwise fun a b => a ≠ b ∧ before a b = true := List.pairwise_and_iff.2 ⟨h2, h3⟩
    refine hboth.imp_of_mem fun {a b} ha hb hab x y hx hy => ?_
    obtain ⟨x', hx', e1, e2, -, -, e3⟩ := head_index hall (hg.good a v ((h1 a).1 ha))
    obtain ⟨y', hy', f1, f2, -, -, f3⟩ := head_index hall (hg.good b v ((h1 b).1 hb))
    rw [e1] at hx; cases hx
    rw [f1] at hy; cases hy
    have hbe := hab.2
    simp only [before, decide_eq_true_eq] at hbe
    rcases Nat.lt_or_ge (all.idxOf x) (all.idxOf y) with hlt | hge
    · exact hlt
    · have hxy : all.idxOf x = all.idxOf y := by omega
      have : x = y := (List.idxOf_inj hx').1 hxy
      subst this
      refine absurd ?_ hab.1
      rw [e3, f3, hg.rel a b v ((h1 a).1 ha) ((h1 b).1 hb)]

/-- **C115**: if types are not derived from one another, the statements of blocks that are reported together are of the same types. -/
theorem C115_types {P : Prog} (hP : Once P) {inst : Nat → Nat → Bool} (hinst : ∀ a b, inst a b = true → a = b) {above : Node → List Node} {K : Checks}
    {similar : List (List Node) → Bool} {all : List Node} (hall : Listed P all) {r : List (List (List Node))}
    (h : visit P inst above K similar all = .ok r) {bs : List (List Node)} (hb : bs ∈ r) : ∀ b ∈ bs, ∀ c ∈ bs, b.map (·.cls) = c.map (·.cls) := by
  have hmap : ∀ (as bs : List Node), as.length = bs.length → (∀ x y, (x, y) ∈ as.zip bs → inst x.cls y.cls = true) → as.map (·.cls) = bs.map (·.cls) := by
    intro as
    induction as with
    | nil => intro bs hl _; cases bs with
      | nil => rfl
      | cons b bs => cases hl
    | cons a as ih =>
      intro bs hl hz
      cases bs with
      | nil => cases hl
      | cons b bs =>
        simp only [List.map_cons]
        rw [hinst _ _ (hz a b (by simp)), ih bs (by simpa using hl) fun x y hxy => hz x y (by simp [hxy])]
  obtain ⟨dup, ids, hg, e⟩ := visit_spec hP (inst := inst) (above := above) (K := K) (similar := similar) hall
    (rel := fun c d => c.block.map (·.cls) = d.block.map (·.cls)) ⟨fun _ => rfl, fun h => h.symm, fun h h' => h.trans h'⟩
    fun i fst _ j snd n _ h => hmap _ _ (comparable_length h) fun x y hxy => h.types x y (by
      rw [List.zip_eq_zipWith, List.take_zipWith]
      exact hxy)
  rw [h] at e
  cases e
  obtain ⟨g, hgo, rfl, -, -, -, -⟩ := mem_report hb
  obtain ⟨v, h1, -, -⟩ := mem_ordered hg.once hgo
  intro b hb c hc
  obtain ⟨c1, hc1, rfl⟩ := List.mem_map.1 hb
  obtain ⟨c2, hc2, rfl⟩ := List.mem_map.1 hc
  exact hg.rel c1 c2 v ((h1 c1).1 hc1) ((h1 c2).1 hc2)

theorem lastSame_le {P : Prog} (ho : InOrder P) (inst : Nat → Nat → Bool) (p : Node) : p.last ≤ (lastSame P inst p).last := by
  unfold lastSame
  split
  · exact Nat.le_refl _
  · cases hl : (((rest P p).drop 1).takeWhile fun n => inst n.cls p.cls).getLast? with
    | none => rw [List.getLastD_eq_getLast?, hl]; exact Nat.le_refl _
    | some q =>
      rw [List.getLastD_eq_getLast?, hl]
      have hq : q ∈ (rest P p).drop 1 := List.takeWhile_subset _ (List.mem_of_getLast? hl)
      by_cases hp : p ∈ P.flatten
      · obtain ⟨l, hr⟩ := rest_cons hp
        obtain ⟨b, hb, pre, hpre⟩ := rest_suffix hp
        have := ho b hb
        rw [hpre, List.pairwise_append, hr, List.pairwise_cons] at this
        rw [hr] at hq
        exact (this.2.1.1 q hq).2
      · have : P.find? (·.contains p) = none := by
          rw [List.find?_eq_none]
          intro b hb hm
          exact hp (List.mem_flatten.2 ⟨b, hb, by simpa using hm⟩)
        unfold rest at hq
        rw [this] at hq
        simp at hq

/-- **C115**: blocks that are all within one statement, be it a function, a loop or another, are not reported. -/
theorem C115_within {P : Prog} (hP : Once P) (ho : InOrder P) {inst : Nat → Nat → Bool} {above : Node → List Node} {K : Checks}
    (hlines : ∀ x p, p ∈ above x → p.first ≤ x.first ∧ x.last ≤ p.last) {similar : List (List Node) → Bool}
    {all : List Node} (hall : Listed P all) {r : List (List (List Node))} (h : visit P inst above K similar all = .ok r) {bs : List (List Node)} (hb : bs ∈ r)
    {p : Node} (hp : p.isModule = false) : ∃ b ∈ bs, ∃ x ∈ b, p ∉ above x := by
  by_contra hcon
  have hin : ∀ b ∈ bs, ∀ x ∈ b, p ∈ above x := by
    intro b hb x hx
    by_contra hn
    exact hcon ⟨b, hb, x, hx, hn⟩
  obtain ⟨k1, -, k3, -, -⟩ := C115_blocks hP hall h hb
  obtain ⟨dup, ids, hg, e⟩ := visit_spec hP (inst := inst) (above := above) (K := K) (similar := similar) hall (rel := fun _ _ => True)
    ⟨fun _ => trivial, fun _ => trivial, fun _ _ => trivial⟩ fun _ _ _ _ _ _ _ _ => trivial
  rw [h] at e
  cases e
  obtain ⟨g, -, -, -, hone, -, -⟩ := mem_report hb
  have hends : ∀ b ∈ bs, ∃ x y, b.head? = some x ∧ b.getLast? = some y ∧ x ∈ b ∧ y ∈ b := by
    intro b hb
    have hne := (k3 b hb).1
    exact ⟨b.head hne, b.getLast hne, List.head?_eq_some_head hne, List.getLast?_eq_some_getLast hne, List.head_mem hne, List.getLast_mem hne⟩
  cases bs with
  | nil => simp at k1
  | cons b bs =>
    obtain ⟨x, y, e1, e2, e3, e4⟩ := hends b (by simp)
    have : ofOne P inst above (b :: bs) = true := by
      unfold ofOne
      simp only [List.head?_cons, Option.bind_some, e1, e2]
      rw [List.any_eq_true]
      refine ⟨p, hin b (by simp) x e3, ?_⟩
      simp only [hp, Bool.not_false, Bool.true_and, Bool.and_eq_true, List.contains_iff_mem, List.all_eq_true, decide_eq_true_eq]
      refine ⟨hin b (by simp) y e4, fun c hc => ?_⟩
      obtain ⟨x', y', f1, f2, f3, f4⟩ := hends c hc
      rw [f1, f2]
      simp only [Option.any_some, decide_eq_true_eq]
      exact ⟨(hlines x' p (hin c hc x' f3)).1, Nat.le_trans (hlines y' p (hin c hc y' f4)).2 (lastSame_le ho inst p)⟩
    rw [this] at hone
    cases hone

theorem report_new {P : Prog} {inst : Nat → Nat → Bool} {above : Node → List Node} {inside : List Node → List Node} {similar : List (List Node) → Bool} :
    ∀ (gs : List (List Candidate)) (dup : List Node), (report P inst above inside similar dup gs).Pairwise fun bs cs =>
      ∀ x, cs.head?.bind List.head? = some x → x ∉ bs.flatMap inside
  | [], _ => List.Pairwise.nil
  | g :: gs, dup => by
    unfold report
    simp only
    split
    · exact report_new gs dup
    · split
      · exact report_new gs dup
      · split
        · exact report_new gs dup
        · split
          · refine List.pairwise_cons.2 ⟨fun cs hcs x hx hm => ?_, report_new gs _⟩
            obtain ⟨_, -, -, -, -, -, h⟩ := mem_report hcs
            exact h x hx (List.mem_append.2 (.inr hm))
          · exact report_new gs dup

/-- **C115**: the first statement of blocks that are reported is in none of those that were reported before. -/
theorem C115_new {P : Prog} {inst : Nat → Nat → Bool} {above : Node → List Node} {K : Checks} {similar : List (List Node) → Bool} {all : List Node}
    {r : List (List (List Node))} (h : visit P inst above K similar all = .ok r) :
    r.Pairwise fun bs cs => ∀ x, cs.head?.bind List.head? = some x → x ∉ bs.flatMap K.inside := by
  unfold visit at h
  split at h
  · cases h
  · cases h
    exact report_new _ _

theorem collect_found {P : Prog} (hP : Once P) {inst : Nat → Nat → Bool} {K : Checks} {all : List Node} (hall : Listed P all) {y : Node}
    (hfree : ∀ z ∈ all, z ≠ y → (K.isLoop (following P z) = true → y ∉ K.inside (following P z)) ∧ ∀ l, K.isIf z = some l → y ∉ l) :
    ∀ (ns : List (Nat × Node)), (∀ x ∈ ns, all[x.1]? = some x.2) → (ns.map (·.2)).Nodup → ∀ (m : Memo), m.Right P → ∀ (dup : List Node) (ids : Ids),
      ∀ {dup' : List Node} {ids' : Ids}, collect P inst K all ns m dup ids = .ok (dup', ids') →
        (∀ x ∈ dup, x ∈ dup') ∧ (y ∉ dup → y ∈ ns.map (·.2) →
          (K.isLoop (following P y) = true → ∀ x ∈ K.inside (following P y), x ∈ dup') ∧
          (K.isLoop (following P y) = false → ∀ l, K.isIf y = some l → ∀ x ∈ l, x ∈ dup'))
  | [], _, _, _, _, dup, ids, dup', ids', h => by
    cases h
    exact ⟨fun _ h => h, fun _ h => by cases h⟩
  | (i, fst) :: ns, hns, hnd, m, hm, dup, ids, dup', ids', h => by
    have ih := collect_found hP (inst := inst) hall hfree ns (fun x hx => hns x (by simp [hx])) (List.nodup_cons.1 hnd).2
    have hi : all[i]? = some fst := hns (i, fst) (by simp)
    have hf : fst ∈ all := List.mem_of_getElem? hi
    have hfst : fst ∉ ns.map (·.2) := (List.nodup_cons.1 hnd).1
    obtain ⟨m1, e1, hm1⟩ := C114_siblings hP hm (hall.inProg fst hf).1 (hall.inProg fst hf).2
    unfold collect at h
    split at h
    · rename_i hc
      obtain ⟨h1, h2⟩ := ih m hm dup ids h
      refine ⟨h1, fun hy hmem => ?_⟩
      rcases List.mem_cons.1 hmem with rfl | hmem
      · exact absurd (by simpa using hc) hy
      · exact h2 hy hmem
    · simp only [e1] at h
      split at h
      · rename_i hl
        obtain ⟨h1, h2⟩ := ih m1 hm1 _ ids h
        refine ⟨fun x hx => h1 x (by simp [hx]), fun hy hmem => ?_⟩
        rcases List.mem_cons.1 hmem with rfl | hmem
        · exact ⟨fun _ x hx => h1 x (by simp [hx]), fun h0 => by rw [hl] at h0; cases h0⟩
        · refine h2 ?_ hmem
          have hne : fst ≠ y := fun e => hfst (e ▸ hmem)
          simp [hy, (hfree fst hf hne).1 hl]
      · rename_i hl
        split at h
        · rename_i l hs
          obtain ⟨h1, h2⟩ := ih m1 hm1 _ ids h
          refine ⟨fun x hx => h1 x (by simp [hx]), fun hy hmem => ?_⟩
          rcases List.mem_cons.1 hmem with rfl | hmem
          · refine ⟨fun h0 => absurd h0 hl, fun _ l' hl' x hx => ?_⟩
            rw [hs] at hl'
            cases hl'
            exact h1 x (by simp [hx])
          · refine h2 ?_ hmem
            have hne : fst ≠ y := fun e => hfst (e ▸ hmem)
            simp [hy, (hfree fst hf hne).2 l hs]
        · rename_i hs
          obtain ⟨m2, cs, e2, hm2, -⟩ := C114_pairs hP (inst := inst) hall hi hm1
          simp only [e2] at h
          obtain ⟨h1, h2⟩ := ih m2 hm2 dup _ h
          refine ⟨h1, fun hy hmem => ?_⟩
          rcases List.mem_cons.1 hmem with rfl | hmem
          · exact ⟨fun h0 => absurd h0 hl, fun _ l' hl' => by rw [hs] at hl'; cases hl'⟩
          · exact h2 hy hmem

/-- **C115**: the first statement of blocks that are reported is in nothing that the checks that come before found, for statements that are in nothing
that was found for others. -/
theorem C115_found {P : Prog} (hP : Once P) {inst : Nat → Nat → Bool} {above : Node → List Node} {K : Checks} {similar : List (List Node) → Bool}
    {all : List Node} (hall : Listed P all) {r : List (List (List Node))} (h : visit P inst above K similar all = .ok r) {y : Node} (hy : y ∈ all)
    (hfree : ∀ z ∈ all, z ≠ y → (K.isLoop (following P z) = true → y ∉ K.inside (following P z)) ∧ ∀ l, K.isIf z = some l → y ∉ l)
    {bs : List (List Node)} (hbs : bs ∈ r) {x : Node} (hx : bs.head?.bind List.head? = some x) :
    (K.isLoop (following P y) = true → x ∉ K.inside (following P y)) ∧
      (K.isLoop (following P y) = false → ∀ l, K.isIf y = some l → x ∉ l) := by
  unfold visit at h
  split at h
  · cases h
  · rename_i dup ids hc
    cases h
    obtain ⟨-, -, -, -, -, -, hd⟩ := mem_report hbs
    have hd := hd x hx
    have hmap : (all.zipIdx.map fun x => (x.2, x.1)).map (·.2) = all := by simp [List.map_map, Function.comp_def]
    obtain ⟨-, h2⟩ := collect_found hP (inst := inst) hall hfree (all.zipIdx.map fun x => (x.2, x.1)) (fun x hx => by
        obtain ⟨y, hy, rfl⟩ := List.mem_map.1 hx
        obtain ⟨a, i⟩ := y
        simpa using List.mem_zipIdx_iff_getElem?.1 hy) (by rw [hmap]; exact hall.once) [] (fun _ _ h => by cases h) [] [] hc
    obtain ⟨h3, h4⟩ := h2 (by simp) (by rw [hmap]; exact hy)
    exact ⟨fun h0 hm => hd (h3 h0 x hm), fun h0 l hl hm => hd (h4 h0 l hl x hm)⟩

/-! ### Examples -/

/-- A statement of the type `c` on one line. -/
def line (n c : Nat) : Node := ⟨n, c, n, n, false, false, true, false, false⟩

/-- A function from one line to another. -/
def func (a b : Nat) : Node := ⟨100 + a, 9, a, b, true, false, false, false, true⟩

/-- `if` in one line -/
def small (n : Nat) : Node := ⟨n, 8, n, n, false, false, false, false, false⟩

def noChecks : Checks := ⟨fun _ => false, fun _ => none, id⟩

/-- The block within which a statement is. -/
def aboveIn (fs : List Node) (n : Node) : List Node := fs.filter fun f => f.first < n.first ∧ n.last ≤ f.last

def sameType (a b : Nat) : Bool := a == b

/-- Everything is similar. -/
def anything (_ : List (List Node)) : Bool := true

/-- Two functions with two statements each of the same types. -/
def two : Prog := [[func 1 3, func 4 6], [line 2 0, line 3 1], [line 5 0, line 6 1]]

def twoAll : List Node := [line 2 0, line 3 1, line 5 0, line 6 1]

example : visit two sameType (aboveIn [func 1 3, func 4 6]) noChecks anything twoAll = .ok [[[line 2 0, line 3 1], [line 5 0, line 6 1]]] := by decide +kernel

/-- All is within the module, which does not matter. -/
example : visit two sameType (aboveIn [⟨99, 7, 0, 6, true, false, false, true, false⟩, func 1 3, func 4 6]) noChecks anything twoAll =
    .ok [[[line 2 0, line 3 1], [line 5 0, line 6 1]]] := by decide +kernel

theorem two_listed : Listed two twoAll := ⟨by decide, by decide, by decide⟩

theorem two_once : Once two := by unfold Once; decide

theorem two_order : InOrder two := by unfold InOrder; decide

example : ∃ cs m', pairs two sameType twoAll [] 0 (line 2 0) = .ok (m', cs) ∧ (⟨0, 2, [line 2 0, line 3 1]⟩, ⟨2, 4, [line 5 0, line 6 1]⟩) ∈ cs := by
  obtain ⟨m', cs, h1, -, h2⟩ := C114_pairs two_once (inst := sameType) two_listed (i := 0) (fst := line 2 0) rfl (m := []) (fun _ _ h => nomatch h)
  refine ⟨cs, m', h1, (h2 _ _).2 ⟨2, line 5 0, 2, rfl, ⟨by decide, by decide, by decide, by decide, by decide, fun x y h => ?_, ?_⟩, fun n' h => ?_, rfl, rfl⟩⟩
  · have : ∀ p ∈ ((following two (line 2 0)).zip (following two (line 5 0))).take 2, sameType p.1.cls p.2.cls = true := by decide
    exact this _ h
  · have : ∀ p ∈ (between twoAll (line 2 0) (line 3 1)).zip (between twoAll (line 5 0) (line 6 1)), sameType p.2.cls p.1.cls = true := by decide
    exact ⟨by decide, line 3 1, line 6 1, by decide, by decide, by decide, by decide, by decide, fun x y h => this _ h⟩
  · have := h.far
    omega

example : askAll two [] [line 6 1, line 5 0, line 6 1, line 3 1] = .ok [[line 6 1], [line 5 0, line 6 1], [line 6 1], [line 3 1]] :=
  C114_memoized two_once [line 6 1, line 5 0, line 6 1, line 3 1] (by decide)

/-- What is reported for the two functions is not all within one of them. -/
example : ∃ b ∈ [[line 2 0, line 3 1], [line 5 0, line 6 1]], ∃ x ∈ b, func 1 3 ∉ aboveIn [func 1 3, func 4 6] x :=
  C115_within two_once two_order (inst := sameType) (above := aboveIn [func 1 3, func 4 6]) (K := noChecks)
    (fun x p h => by
      have := (List.mem_filter.1 h).2
      simp only [decide_eq_true_eq] at this
      omega) (similar := anything) two_listed (r := [[[line 2 0, line 3 1], [line 5 0, line 6 1]]]) (by decide +kernel) (by simp) rfl

/-- The same in one function are not reported, and neither are single simple statements. -/
example : visit [[func 1 6], [line 2 0, line 3 1, small 4, line 5 0, line 6 1]] sameType (aboveIn [func 1 6]) noChecks anything
      [line 2 0, line 3 1, small 4, line 5 0, line 6 1] = .ok [] ∧
    visit [[func 1 2, func 3 4], [line 2 0], [line 4 0]] sameType (aboveIn [func 1 2, func 3 4]) noChecks anything [line 2 0, line 4 0] = .ok [] ∧
    visit [[func 1 2, func 3 4], [small 2], [small 4]] sameType (aboveIn [func 1 2, func 3 4]) noChecks anything [small 2, small 4] =
      .ok [[[small 2], [small 4]]] := by decide +kernel

/-- What repeats in a row is left to the loops. -/
example : visit [[line 1 0, line 2 1, line 3 0, line 4 1]] sameType (fun _ => []) noChecks anything [line 1 0, line 2 1, line 3 0, line 4 1] = .ok [] := by
  decide +kernel

/-- What was found to be like a loop is not compared. -/
example : visit two sameType (aboveIn [func 1 3, func 4 6]) { noChecks with isLoop := fun s => s.head? == some (line 2 0) } anything twoAll = .ok [] := by
  decide +kernel

/-- A function with more of the same in a row. -/
def three : Prog := [[func 1 3, func 4 7], [line 2 0, line 3 0], [line 5 0, line 6 0, line 7 0]]

/-- Blocks that are reported together may overlap: `f(1); f(2)` in one function and `f(3); f(4); f(5)` in another, where both `f(3); f(4)` and
`f(4); f(5)` are like the first. -/
theorem C115_overlap_counterexample :
    visit three sameType (aboveIn [func 1 3, func 4 7]) noChecks anything [line 2 0, line 3 0, line 5 0, line 6 0, line 7 0] =
      .ok [[[line 2 0, line 3 0], [line 5 0, line 6 0], [line 6 0, line 7 0]]] := by decide +kernel

/-- Three functions, of which the first two have three statements and the last only the first two of these. -/
def lost : Prog := [[func 1 4, func 5 8, func 9 11], [line 2 0, line 3 1, line 4 2], [line 6 0, line 7 1, line 8 2], [line 10 0, line 11 1]]

def lostAll : List Node := [line 2 0, line 3 1, line 4 2, line 6 0, line 7 1, line 8 2, line 10 0, line 11 1]

/-- Blocks that were found to be alike need not be together: the first two statements of the first function are like the last function, which is put
together with those of the second function later. -/
theorem C115_lost_counterexample :
    (pairs lost sameType lostAll [] 0 (line 2 0)).map (·.2) =
        .ok [(⟨0, 3, [line 2 0, line 3 1, line 4 2]⟩, ⟨3, 6, [line 6 0, line 7 1, line 8 2]⟩), (⟨0, 2, [line 2 0, line 3 1]⟩, ⟨6, 8, [line 10 0, line 11 1]⟩)] ∧
      visit lost sameType (aboveIn [func 1 4, func 5 8, func 9 11]) noChecks (fun bs => bs.all fun b => b.map (·.cls) == [0, 1]) lostAll =
        .ok [[[line 6 0, line 7 1], [line 10 0, line 11 1]]] := by decide +kernel

/-- Where the first function is found to be like a loop, only the other two are compared, although its second statement and its third are like those
of the second function. -/
example : visit lost sameType (aboveIn [func 1 4, func 5 8, func 9 11]) { noChecks with isLoop := fun s => s.head? == some (line 2 0) } anything lostAll =
    .ok [[[line 6 0, line 7 1], [line 10 0, line 11 1]]] := by decide +kernel

example {r : List (List (List Node))} {similar : List (List Node) → Bool}
    (h : visit lost sameType (aboveIn [func 1 4, func 5 8, func 9 11]) { noChecks with isLoop := fun s => s.head? == some (line 2 0) } similar lostAll = .ok r)
    {bs : List (List Node)} (hbs : bs ∈ r) : bs.head?.bind List.head? ≠ some (line 3 1) := fun hx =>
  (C115_found (by unfold Once; decide) ⟨by decide, by decide, by decide⟩ h (y := line 2 0) (by decide) (by
    intro z hz hne
    have : ∀ z ∈ lostAll, z ≠ line 2 0 → ((following lost z).head? == some (line 2 0)) = false := by decide
    exact ⟨fun h0 => Bool.noConfusion ((this z hz hne).symm.trans h0), fun _ hl => (by cases hl)⟩) hbs hx).1 (by decide) (by decide)

/-- What the checks for `if` find is left out in the same way. -/
example : visit lost sameType (aboveIn [func 1 4, func 5 8, func 9 11])
      { noChecks with isIf := fun n => if n = line 2 0 then some [line 3 1, line 6 0] else none } anything lostAll = .ok [] := by decide +kernel

end Verif.Candidates
