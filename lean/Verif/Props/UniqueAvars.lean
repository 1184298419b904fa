import Verif.Model.UniqueAvars

/-!
C148: Placeholders are taken for the same one only if they stand for the same.
-/

namespace Verif.UniqueAvars

theorem pyEq_refl (a : Val) : a.pyEq a = true := by cases a <;> simp [Val.pyEq]

theorem pyEq_symm (a b : Val) : a.pyEq b = b.pyEq a := by cases a <;> cases b <;> simp [Val.pyEq, eq_comm]

theorem pyEq_trans {a b c : Val} (h : a.pyEq b = true) (h' : b.pyEq c = true) : a.pyEq c = true := by
  cases a <;> cases b <;> simp [Val.pyEq] at h <;> cases c <;> simp [Val.pyEq] at h' <;> simp [Val.pyEq, *]

theorem tupleEq_refl : ∀ l : List Val, tupleEq l l = true
  | [] => rfl
  | a :: l => by simp [tupleEq, pyEq_refl, tupleEq_refl l]

theorem tupleEq_symm : ∀ l m : List Val, tupleEq l m = tupleEq m l
  | [], [] => rfl
  | [], _ :: _ => rfl
  | _ :: _, [] => rfl
  | a :: l, b :: m => by simp [tupleEq, pyEq_symm a b, tupleEq_symm l m]

theorem tupleEq_trans : ∀ {l m n : List Val}, tupleEq l m = true → tupleEq m n = true → tupleEq l n = true
  | [], [], _, _, h => h
  | a :: l, b :: m, [], _, h => by simp [tupleEq] at h
  | a :: l, b :: m, c :: n, h, h' => by
    simp only [tupleEq, Bool.and_eq_true] at *
    exact ⟨pyEq_trans h.1 h'.1, tupleEq_trans h.2 h'.2⟩

theorem lookup_eq (seen : List (List Val × Str)) (vals : List Val) (d : Str) : lookup seen vals d = ((seen.find? fun p => tupleEq p.1 vals).map Prod.snd).getD d := by
  unfold lookup
  cases seen.find? fun p => tupleEq p.1 vals <;> rfl

/-- C148: The placeholders that are left are in the order they were. -/
theorem C148_sublist : ∀ (avars : List Avar) (seen : List (List Val × Str)), (uniqueFrom seen avars).Sublist avars
  | [], _ => List.Sublist.slnil
  | a :: as, seen => by
    rw [uniqueFrom]
    split
    · exact (C148_sublist as seen).cons a
    · exact (C148_sublist as _).cons_cons a

theorem uniqueFrom_cover : ∀ (avars : List Avar) (seen : List (List Val × Str)), ∀ a ∈ avars,
    (∃ p ∈ seen, tupleEq p.1 a.subs = true) ∨ ∃ b ∈ uniqueFrom seen avars, tupleEq b.subs a.subs = true
  | [], _, _, h => by simp at h
  | c :: as, seen, a, h => by
    rw [uniqueFrom]
    rcases List.mem_cons.1 h with rfl | h
    · split
      · rename_i hl
        rw [lookup_eq] at hl
        cases hf : seen.find? fun p => tupleEq p.1 a.subs with
        | none => simp [hf] at hl
        | some p => exact Or.inl ⟨p, List.mem_of_find?_eq_some hf, by simpa using List.find?_some hf⟩
      · exact Or.inr ⟨a, by simp, tupleEq_refl _⟩
    · split
      · exact uniqueFrom_cover as seen a h
      · rcases uniqueFrom_cover as (seen ++ [(c.subs, c.name)]) a h with ⟨p, hp, he⟩ | ⟨b, hb, he⟩
        · rcases List.mem_append.1 hp with hp | hp
          · exact Or.inl ⟨p, hp, he⟩
          · rw [List.mem_singleton] at hp
            subst hp
            exact Or.inr ⟨c, by simp, he⟩
        · exact Or.inr ⟨b, List.mem_cons_of_mem _ hb, he⟩

theorem uniqueFrom_new : ∀ (avars : List Avar) (seen : List (List Val × Str)), ∀ b ∈ uniqueFrom seen avars, ∀ p ∈ seen, tupleEq p.1 b.subs = true →
    ∃ q ∈ seen, tupleEq q.1 b.subs = true ∧ q.2 = b.name
  | [], _, b, h => by simp [uniqueFrom] at h
  | a :: as, seen, b, h => by
    intro p hp he
    rw [uniqueFrom] at h
    split at h
    · exact uniqueFrom_new as seen b h p hp he
    · rename_i hl
      rcases List.mem_cons.1 h with rfl | h
      · rw [lookup_eq] at hl
        cases hf : seen.find? fun p => tupleEq p.1 b.subs with
        | none =>
          rw [List.find?_eq_none] at hf
          exact absurd he (by simpa using hf p hp)
        | some q =>
          rw [hf] at hl
          exact ⟨q, List.mem_of_find?_eq_some hf, by simpa using List.find?_some hf, by simpa using hl⟩
      · obtain ⟨q, hq, h1, h2⟩ := uniqueFrom_new as _ b h p (List.mem_append_left _ hp) he
        rcases List.mem_append.1 hq with hq | hq
        · exact ⟨q, hq, h1, h2⟩
        · rw [List.mem_singleton] at hq
          subst hq
          -- `a` was not skipped, so it has the name that was seen before, if there is one
          rw [lookup_eq] at hl
          cases hf : seen.find? fun p => tupleEq p.1 a.subs with
          | none =>
            rw [List.find?_eq_none] at hf
            have : tupleEq p.1 a.subs = true := tupleEq_trans he (by rw [tupleEq_symm]; exact h1)
            exact absurd this (by simpa using hf p hp)
          | some r =>
            rw [hf] at hl
            refine ⟨r, List.mem_of_find?_eq_some hf, ?_, ?_⟩
            · have : tupleEq r.1 a.subs = true := by simpa using List.find?_some hf
              exact tupleEq_trans this h1
            · have : r.2 = a.name := by simpa using hl
              rw [this]
              exact h2

/-- C148: If all placeholders have different names, no two that are left have equal values. -/
theorem C148_different : ∀ {avars : List Avar} {seen : List (List Val × Str)}, (avars.map (·.name)).Nodup → (∀ p ∈ seen, ∀ a ∈ avars, p.2 ≠ a.name) →
    (uniqueFrom seen avars).Pairwise fun a b => tupleEq a.subs b.subs = false
  | [], _, _, _ => List.Pairwise.nil
  | a :: as, seen, hn, hs => by
    rw [List.map_cons, List.nodup_cons] at hn
    rw [uniqueFrom]
    split
    · exact C148_different hn.2 fun p hp b hb => hs p hp b (List.mem_cons_of_mem _ hb)
    · have hs' : ∀ p ∈ seen ++ [(a.subs, a.name)], ∀ b ∈ as, p.2 ≠ b.name := by
        intro p hp b hb
        rcases List.mem_append.1 hp with hp | hp
        · exact hs p hp b (List.mem_cons_of_mem _ hb)
        · rw [List.mem_singleton] at hp
          subst hp
          intro h
          exact hn.1 (List.mem_map.2 ⟨b, hb, h.symm⟩)
      refine List.Pairwise.cons (fun b hb => ?_) (C148_different hn.2 hs')
      cases he : tupleEq a.subs b.subs with
      | false => rfl
      | true =>
        obtain ⟨q, hq, _, h2⟩ := uniqueFrom_new as _ b hb (a.subs, a.name) (by simp) he
        exact absurd h2 (hs' q hq b ((C148_sublist as _).subset hb))

/-- C148: Each placeholder is left, or one with equal values is. -/
theorem C148_cover (avars : List Avar) : ∀ a ∈ avars, ∃ b ∈ unique avars, tupleEq b.subs a.subs = true := by
  intro a ha
  rcases uniqueFrom_cover avars [] a ha with ⟨p, hp, _⟩ | h
  · simp at hp
  · exact h

theorem lookup_ne {seen : List (List Val × Str)} {a : Avar} (hs : ∀ p ∈ seen, p.2 ≠ a.name) : lookup seen a.subs a.name ≠ a.name ↔ ∃ p ∈ seen, tupleEq p.1 a.subs = true := by
  rw [lookup_eq]
  cases hf : seen.find? fun p => tupleEq p.1 a.subs with
  | none =>
    rw [List.find?_eq_none] at hf
    simp only [Option.map_none, Option.getD_none, ne_eq, not_true_eq_false, false_iff]
    rintro ⟨p, hp, he⟩
    exact hf p hp he
  | some p =>
    simp only [Option.map_some, Option.getD_some]
    exact ⟨fun _ => ⟨p, List.mem_of_find?_eq_some hf, by simpa using List.find?_some hf⟩, fun _ => hs p (List.mem_of_find?_eq_some hf)⟩

theorem uniqueFrom_first {b : Avar} {r : List Avar} : ∀ {l : List Avar} {seen : List (List Val × Str)}, ((l ++ b :: r).map (·.name)).Nodup →
    (∀ p ∈ seen, ∀ a ∈ l ++ b :: r, p.2 ≠ a.name) →
    (b ∈ uniqueFrom seen (l ++ b :: r) ↔ (∀ p ∈ seen, tupleEq p.1 b.subs = false) ∧ ∀ a ∈ l, tupleEq a.subs b.subs = false)
  | [], seen, hn, hs => by
    simp only [List.nil_append, List.map_cons, List.nodup_cons] at hn
    have hr : ∀ seen', b ∉ uniqueFrom seen' r := fun seen' h => hn.1 (List.mem_map_of_mem ((C148_sublist r seen').subset h))
    rw [List.nil_append, uniqueFrom]
    by_cases h : ∃ p ∈ seen, tupleEq p.1 b.subs = true
    · rw [if_pos ((lookup_ne fun p hp => hs p hp b (by simp)).2 h)]
      constructor
      · exact fun hb => absurd hb (hr _)
      · rintro ⟨h', _⟩
        obtain ⟨p, hp, he⟩ := h
        rw [h' p hp] at he
        exact absurd he (by simp)
    · rw [if_neg (fun h' => h ((lookup_ne fun p hp => hs p hp b (by simp)).1 h'))]
      constructor
      · intro _
        refine ⟨fun p hp => ?_, by simp⟩
        cases he : tupleEq p.1 b.subs with
        | false => rfl
        | true => exact absurd ⟨p, hp, he⟩ h
      · intro _
        simp
  | a :: l, seen, hn, hs => by
    simp only [List.cons_append, List.map_cons, List.nodup_cons] at hn
    have hba : b ≠ a := by
      rintro rfl
      exact hn.1 (by simp)
    rw [List.cons_append, uniqueFrom]
    by_cases h : ∃ p ∈ seen, tupleEq p.1 a.subs = true
    · rw [if_pos ((lookup_ne fun p hp => hs p hp a (by simp)).2 h), uniqueFrom_first hn.2 fun p hp c hc => hs p hp c (List.mem_cons_of_mem _ hc)]
      constructor
      · rintro ⟨h1, h2⟩
        refine ⟨h1, fun c hc => ?_⟩
        rcases List.mem_cons.1 hc with rfl | hc
        · obtain ⟨p, hp, he⟩ := h
          cases hcb : tupleEq c.subs b.subs with
          | false => rfl
          | true => rw [← h1 p hp, tupleEq_trans he hcb]
        · exact h2 c hc
      · rintro ⟨h1, h2⟩
        exact ⟨h1, fun c hc => h2 c (List.mem_cons_of_mem _ hc)⟩
    · rw [if_neg (fun h' => h ((lookup_ne fun p hp => hs p hp a (by simp)).1 h')), List.mem_cons,
        uniqueFrom_first hn.2 (by
          intro p hp c hc
          rcases List.mem_append.1 hp with hp | hp
          · exact hs p hp c (List.mem_cons_of_mem _ hc)
          · rw [List.mem_singleton] at hp
            subst hp
            intro h
            exact hn.1 (List.mem_map.2 ⟨c, hc, h.symm⟩))]
      constructor
      · rintro (h' | ⟨h1, h2⟩)
        · exact absurd h' hba
        · refine ⟨fun p hp => h1 p (List.mem_append_left _ hp), fun c hc => ?_⟩
          rcases List.mem_cons.1 hc with rfl | hc
          · exact h1 (c.subs, c.name) (by simp)
          · exact h2 c hc
      · rintro ⟨h1, h2⟩
        refine Or.inr ⟨fun p hp => ?_, fun c hc => h2 c (List.mem_cons_of_mem _ hc)⟩
        rcases List.mem_append.1 hp with hp | hp
        · exact h1 p hp
        · rw [List.mem_singleton] at hp
          subst hp
          exact h2 a (by simp)

/-- C148: If all placeholders have different names, just those are left that have no earlier one with equal values. -/
theorem C148_first {l : List Avar} {b : Avar} {r : List Avar} (hn : ((l ++ b :: r).map (·.name)).Nodup) :
    b ∈ unique (l ++ b :: r) ↔ ∀ a ∈ l, tupleEq a.subs b.subs = false := by
  unfold unique
  rw [uniqueFrom_first hn (by simp)]
  simp

/-- Placeholders whose values cannot be equal without being the same: neither numbers of different types, nor names and texts. -/
def Apart (avars : List Avar) : Prop := ∀ a ∈ avars, ∀ b ∈ avars, tupleEq a.subs b.subs = true →
  a.inName = b.inName ∧ ∀ (k : Nat) (t u : NumType) (v w : Int), a.subs[k]? = some (.num t v) → b.subs[k]? = some (.num u w) → t = u

theorem tupleEq_get : ∀ {l m : List Val} (k : Nat), tupleEq l m = true → (l[k]? = none ∧ m[k]? = none) ∨ ∃ a b, l[k]? = some a ∧ m[k]? = some b ∧ a.pyEq b = true
  | [], [], _, _ => by simp
  | a :: l, b :: m, 0, h => by
    simp only [tupleEq, Bool.and_eq_true] at h
    exact Or.inr ⟨a, b, rfl, rfl, h.1⟩
  | a :: l, b :: m, k + 1, h => by
    simp only [tupleEq, Bool.and_eq_true] at h
    simpa using tupleEq_get k h.2

/-- C148: If no values are equal without being the same, there is a helper variable for each placeholder that is assigned just what the placeholder stands for in a branch. -/
theorem C148_assigned_partial {avars : List Avar} (h : Apart avars) {a : Avar} (ha : a ∈ avars) :
    ∃ x, ∀ (k : Nat) (v : Val), a.subs[k]? = some v → (x, toNode a v) ∈ assigned avars k := by
  obtain ⟨b, hb, he⟩ := C148_cover avars a ha
  have hba := h b ((C148_sublist avars []).subset hb) a ha he
  refine ⟨b.name, fun k v hv => ?_⟩
  unfold assigned
  rw [List.mem_filterMap]
  refine ⟨b, hb, ?_⟩
  rcases tupleEq_get k he with ⟨_, hn⟩ | ⟨c, d, hc, hd, hcd⟩
  · rw [hn] at hv
    exact absurd hv (by simp)
  · rw [hd] at hv
    cases hv
    rw [hc]
    have hcv : c = v := by
      cases c <;> cases v <;> simp [Val.pyEq] at hcd
      · rename_i t x u y
        rw [hba.2 k t u x y hc hd, hcd]
      · rw [hcd]
      · rfl
      · rw [hcd]
    subst hcv
    have : toNode b c = toNode a c := by simp only [toNode, hba.1]
    simp [this]

/-- C148: Helper variables are assigned to once in each branch. -/
theorem C148_once {avars : List Avar} (hn : (avars.map (·.name)).Nodup) (k : Nat) : ((assigned avars k).map Prod.fst).Nodup := by
  have h : ((unique avars).map (·.name)).Nodup := hn.sublist ((C148_sublist avars []).map _)
  unfold assigned
  refine h.sublist ?_
  generalize unique avars = l
  induction l with
  | nil => simp
  | cons a l ih =>
    rw [List.filterMap_cons]
    cases a.subs[k]? with
    | none => exact ih.cons _
    | some v => exact ih.cons_cons _

/-! ### Examples and counterexamples -/

def int (v : Int) : Val := .num .int v
/-- `f(1, 2, 1)` and `f(3, 4, 3)` -/
def exAvars : List Avar := [⟨"ID_1".toList, [int 1, int 3], false⟩, ⟨"ID_2".toList, [int 2, int 4], false⟩, ⟨"ID_3".toList, [int 1, int 3], false⟩]

example : (unique exAvars).map (·.name) = ["ID_1".toList, "ID_2".toList] ∧
    assigned exAvars 1 = [("ID_1".toList, .const (int 3)), ("ID_2".toList, .const (int 4))] := by decide +kernel

example : Apart exAvars := by
  intro a ha b hb _
  simp only [exAvars, List.mem_cons, List.not_mem_nil, or_false] at ha hb
  rcases ha with rfl | rfl | rfl <;> rcases hb with rfl | rfl | rfl <;> refine ⟨rfl, fun k t u v w h h' => ?_⟩ <;>
    (match k with
     | 0 => simp [int] at h h'; rw [← h.1, ← h'.1]
     | 1 => simp [int] at h h'; rw [← h.1, ← h'.1]
     | k + 2 => simp at h)

/-- The property fails for `f(1, True)` and `f(0, False)`: one variable is there for both, and nothing is assigned that is `True`. -/
theorem C148_bool_counterexample :
    (unique [⟨"ID_1".toList, [int 1, int 0], false⟩, ⟨"ID_2".toList, [.num .bool 1, .num .bool 0], false⟩]).map (·.name) = ["ID_1".toList] ∧
    ∀ x, (x, Node.const (.num .bool 1)) ∉ assigned [⟨"ID_1".toList, [int 1, int 0], false⟩, ⟨"ID_2".toList, [.num .bool 1, .num .bool 0], false⟩] 0 := by
  have h : assigned [⟨"ID_1".toList, [int 1, int 0], false⟩, ⟨"ID_2".toList, [.num .bool 1, .num .bool 0], false⟩] 0 = [("ID_1".toList, .const (int 1))] := by decide +kernel
  refine ⟨by decide +kernel, fun x => ?_⟩
  rw [h, List.mem_singleton]
  simp [int]

/-- It fails for `f(x, "x")` and `f(y, "y")`, too: names and texts are not distinguished. -/
theorem C148_name_counterexample :
    (unique [⟨"ID_1".toList, [.str "x".toList, .str "y".toList], true⟩, ⟨"ID_2".toList, [.str "x".toList, .str "y".toList], false⟩]).map (·.name) = ["ID_1".toList] ∧
    assigned [⟨"ID_1".toList, [.str "x".toList, .str "y".toList], true⟩, ⟨"ID_2".toList, [.str "x".toList, .str "y".toList], false⟩] 0 =
      [("ID_1".toList, .name (.str "x".toList))] := by decide +kernel

end Verif.UniqueAvars
