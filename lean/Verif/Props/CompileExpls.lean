import Verif.Model.CompileExpls
import Verif.Props.ConfigPaths
import Mathlib.Data.List.Nodup

/-!
C160: what the compiled explanations say.
-/

namespace Verif.CompileExpls

/-- The table has this text for the field of the message. -/
def Has (t : Table) (id field value : Str) : Prop := ∃ fields, (id, fields) ∈ t ∧ (field, value) ∈ fields

/-- The ids in a table differ, and so do the names of fields of a message. -/
def Wf (t : Table) : Prop := (t.map (·.1)).Nodup ∧ ∀ e ∈ t, (e.2.map (·.1)).Nodup

/-- The text, by lookup. -/
def text (t : Table) (id field : Str) : Option Str := (Dict.get? t id).bind fun fields => Dict.get? fields field

theorem has_iff {t : Table} (h : Wf t) {id field value : Str} : Has t id field value ↔ text t id field = some value := by
  constructor
  · rintro ⟨fields, h1, h2⟩
    unfold text
    rw [Dict.get?_of_mem_nodup h1 h.1]
    exact Dict.get?_of_mem_nodup h2 (h.2 _ h1)
  · intro ht
    unfold text at ht
    obtain ⟨fields, h1, h2⟩ := Option.bind_eq_some_iff.1 ht
    exact ⟨fields, Dict.mem_of_get? h1, Dict.mem_of_get? h2⟩

/-- Leaves out the empty text. -/
def filled : Option Str → Option Str
  | some [] => none
  | o => o

theorem filled_some {o : Option Str} {v : Str} : filled o = some v ↔ o = some v ∧ v ≠ [] := by
  match o with
  | none => simp [filled]
  | some [] => simp [filled]
  | some (c :: cs) => simp [filled]; rintro rfl; simp

theorem text_setField (a : Table) (i g v id f : Str) : text (setField a i g v) id f = if id = i ∧ f = g then some v else text a id f := by
  unfold text setField
  rw [Dict.get?_set]
  by_cases hi : id = i
  · subst hi
    simp only [if_true, Option.bind_some, true_and]
    rw [Dict.get?_set]
    by_cases hf : f = g
    · simp [hf]
    · simp only [hf, if_false]
      cases Dict.get? a id <;> rfl
  · simp [hi]

theorem text_addFields (fs : Dict Str Str) (a : Table) (i id f : Str) (hn : (fs.map (·.1)).Nodup) :
    text (addFields a i fs) id f = if id = i then (filled (Dict.get? fs f)).or (text a id f) else text a id f := by
  induction fs generalizing a with
  | nil => simp [addFields, Dict.get?, filled]
  | cons e rest ih =>
    obtain ⟨g, v⟩ := e
    rw [List.map_cons, List.nodup_cons] at hn
    rw [addFields, ih _ hn.2]
    by_cases hi : id = i
    · subst hi
      simp only [if_true]
      have hget : Dict.get? ((g, v) :: rest) f = if g = f then some v else Dict.get? rest f := rfl
      rw [hget]
      by_cases hf : g = f
      · subst hf
        have hnone : Dict.get? rest g = none := (Dict.get?_eq_none_iff _ _).2 hn.1
        rw [hnone]
        simp only [if_true]
        cases v with
        | nil => simp [filled]
        | cons c cs => simp [filled, text_setField]
      · simp only [hf, if_false]
        congr 1
        cases v with
        | nil => simp
        | cons c cs => simp [text_setField, Ne.symm hf]
    · simp only [hi, if_false]
      cases v with
      | nil => simp
      | cons c cs => simp [text_setField, hi]

theorem text_addSource (s a : Table) (hs : Wf s) (id f : Str) : text (addSource a s) id f = (filled (text s id f)).or (text a id f) := by
  induction s generalizing a with
  | nil => simp [addSource, text, Dict.get?, filled]
  | cons e rest ih =>
    obtain ⟨i, fs⟩ := e
    have h1 := hs.1
    rw [List.map_cons, List.nodup_cons] at h1
    have hr : Wf rest := ⟨h1.2, fun e he => hs.2 e (List.mem_cons_of_mem _ he)⟩
    rw [addSource, ih _ hr, text_addFields fs a i id f (hs.2 _ (List.mem_cons_self ..))]
    have hget : text ((i, fs) :: rest) id f = if i = id then Dict.get? fs f else text rest id f := by
      unfold text
      show (if i = id then some fs else Dict.get? rest id).bind _ = _
      by_cases hi : i = id <;> simp [hi]
    rw [hget]
    by_cases hi : i = id
    · subst hi
      have hnone : text rest i f = none := by
        unfold text
        rw [(Dict.get?_eq_none_iff _ _).2 h1.1]; rfl
      rw [hnone]
      simp [filled]
    · simp [hi, Ne.symm hi]

/-! ### The result is a table without empty texts -/

/-- No message without fields, and no empty text. -/
def Filled (t : Table) : Prop := ∀ e ∈ t, e.2 ≠ [] ∧ ∀ f ∈ e.2, f.2 ≠ []

theorem mem_set {κ ν : Type} [DecidableEq κ] {d : Dict κ ν} {k : κ} {v : ν} {e : κ × ν} (h : e ∈ Dict.set d k v) : e = (k, v) ∨ e ∈ d := by
  induction d with
  | nil => exact Or.inl (List.mem_singleton.1 h)
  | cons x xs ih =>
    obtain ⟨k', v'⟩ := x
    rw [Dict.set] at h
    split at h
    · rename_i hk
      rcases List.mem_cons.1 h with h | h
      · exact Or.inl (by rw [h, hk])
      · exact Or.inr (List.mem_cons_of_mem _ h)
    · rcases List.mem_cons.1 h with h | h
      · exact Or.inr (by rw [h]; exact List.mem_cons_self ..)
      · rcases ih h with h | h
        · exact Or.inl h
        · exact Or.inr (List.mem_cons_of_mem _ h)

theorem set_ne_nil {κ ν : Type} [DecidableEq κ] {d : Dict κ ν} {k : κ} {v : ν} : Dict.set d k v ≠ [] := by
  cases d with
  | nil => simp [Dict.set]
  | cons x xs => rw [Dict.set]; split <;> simp

theorem good_setField {a : Table} {i g v : Str} (h : Wf a ∧ Filled a) (hv : v ≠ []) : Wf (setField a i g v) ∧ Filled (setField a i g v) := by
  have hold : ∀ fields, Dict.get? a i = some fields → (i, fields) ∈ a := fun _ hg => Dict.mem_of_get? hg
  refine ⟨⟨Dict.nodup_keys_set a i _ h.1.1, fun e he => ?_⟩, fun e he => ?_⟩
  · rcases mem_set he with rfl | he
    · refine Dict.nodup_keys_set _ g v ?_
      cases hg : Dict.get? a i with
      | none => exact List.nodup_nil
      | some fields => exact h.1.2 _ (hold _ hg)
    · exact h.1.2 e he
  · rcases mem_set he with rfl | he
    · refine ⟨set_ne_nil, fun f hf => ?_⟩
      rcases mem_set hf with rfl | hf
      · exact hv
      · cases hg : Dict.get? a i with
        | none => rw [hg] at hf; exact nomatch hf
        | some fields => rw [hg] at hf; exact (h.2 _ (hold _ hg)).2 f hf
    · exact h.2 e he

theorem good_addFields {fs : Dict Str Str} {a : Table} {i : Str} (h : Wf a ∧ Filled a) : Wf (addFields a i fs) ∧ Filled (addFields a i fs) := by
  induction fs generalizing a with
  | nil => exact h
  | cons e rest ih =>
    obtain ⟨g, v⟩ := e
    rw [addFields]
    by_cases hv : v = []
    · rw [if_pos hv]; exact ih h
    · rw [if_neg hv]; exact ih (good_setField h hv)

theorem good_addSource {s a : Table} (h : Wf a ∧ Filled a) : Wf (addSource a s) ∧ Filled (addSource a s) := by
  induction s generalizing a with
  | nil => exact h
  | cons e rest ih =>
    obtain ⟨i, fs⟩ := e
    rw [addSource]
    exact ih (good_addFields h)

theorem good_combine (p t m : Table) : Wf (combine p t m) ∧ Filled (combine p t m) := by
  have h0 : Wf [] ∧ Filled [] := ⟨⟨List.nodup_nil, fun e he => nomatch he⟩, fun e he => nomatch he⟩
  exact good_addSource (good_addSource (good_addSource h0))

theorem text_combine {p t m : Table} (hp : Wf p) (ht : Wf t) (hm : Wf m) (id f : Str) :
    text (combine p t m) id f = (filled (text m id f)).or ((filled (text t id f)).or (filled (text p id f))) := by
  show text (addSource (addSource (addSource [] p) t) m) id f = _
  rw [text_addSource _ _ hm, text_addSource _ _ ht, text_addSource _ _ hp]
  have : text [] id f = none := rfl
  rw [this, Option.or_none]

/-! ### C160 -/

/-- **C160**, sources: the compiled table has a text for a field of a message exactly if it is not empty and is that of the last of the three sources that has one that is not empty. -/
theorem C160_sources (p t m : Table) (hp : Wf p) (ht : Wf t) (hm : Wf m) (id f v : Str) :
    Has (combine p t m) id f v ↔ v ≠ [] ∧
      (Has m id f v ∨ (Has t id f v ∧ ¬ ∃ w, w ≠ [] ∧ Has m id f w) ∨
        (Has p id f v ∧ ¬ (∃ w, w ≠ [] ∧ Has m id f w) ∧ ¬ ∃ w, w ≠ [] ∧ Has t id f w)) := by
  rw [has_iff (good_combine p t m).1, text_combine hp ht hm]
  have key : ∀ {s : Table}, Wf s → ((∃ w, w ≠ [] ∧ Has s id f w) ↔ ∃ w, filled (text s id f) = some w) := by
    intro s hs
    constructor
    · rintro ⟨w, hw, hh⟩; exact ⟨w, filled_some.2 ⟨(has_iff hs).1 hh, hw⟩⟩
    · rintro ⟨w, hh⟩; exact ⟨w, (filled_some.1 hh).2, (has_iff hs).2 (filled_some.1 hh).1⟩
  rw [key hm, key ht, has_iff hm, has_iff ht, has_iff hp]
  cases h1 : filled (text m id f) with
  | some w =>
    have := filled_some.1 h1
    simp only [Option.some_or, Option.some.injEq, this.1]
    constructor
    · rintro rfl; exact ⟨this.2, Or.inl rfl⟩
    · rintro ⟨_, h | ⟨_, h⟩ | ⟨_, h, _⟩⟩
      · exact h
      · exact absurd ⟨w, rfl⟩ h
      · exact absurd ⟨w, rfl⟩ h
  | none =>
    have e1 : ∀ v, v ≠ [] → text m id f ≠ some v := fun v hv e => by rw [filled_some.2 ⟨e, hv⟩] at h1; exact nomatch h1
    cases h2 : filled (text t id f) with
    | some w =>
      have := filled_some.1 h2
      simp only [Option.none_or, Option.some_or, Option.some.injEq, this.1]
      constructor
      · rintro rfl; exact ⟨this.2, Or.inr (Or.inl ⟨rfl, fun ⟨_, h⟩ => nomatch h⟩)⟩
      · rintro ⟨hv, h | ⟨h, _⟩ | ⟨_, _, h⟩⟩
        · exact absurd h (e1 v hv)
        · exact h
        · exact absurd ⟨w, rfl⟩ h
    | none =>
      have e2 : ∀ v, v ≠ [] → text t id f ≠ some v := fun v hv e => by rw [filled_some.2 ⟨e, hv⟩] at h2; exact nomatch h2
      simp only [Option.none_or, filled_some]
      constructor
      · rintro ⟨h, hv⟩; exact ⟨hv, Or.inr (Or.inr ⟨h, (fun ⟨_, h⟩ => nomatch h), (fun ⟨_, h⟩ => nomatch h)⟩)⟩
      · rintro ⟨hv, h | ⟨h, _⟩ | ⟨h, _, _⟩⟩
        · exact absurd h (e1 v hv)
        · exact absurd h (e2 v hv)
        · exact ⟨h, hv⟩

/-- **C160**, each message once: the ids in the compiled table differ, and every message in it has a text; it is in one of the sources. -/
theorem C160_messages (p t m : Table) (hp : Wf p) (ht : Wf t) (hm : Wf m) :
    ((combine p t m).map (·.1)).Nodup ∧
      ∀ id, id ∈ (combine p t m).map (·.1) ↔ ∃ f v, v ≠ [] ∧ (Has p id f v ∨ Has t id f v ∨ Has m id f v) := by
  refine ⟨(good_combine p t m).1.1, fun id => ⟨fun h => ?_, ?_⟩⟩
  · obtain ⟨e, he, rfl⟩ := List.mem_map.1 h
    obtain ⟨hne, hf⟩ := (good_combine p t m).2 e he
    cases hfs : e.2 with
    | nil => exact absurd hfs hne
    | cons x xs =>
      have hx : x ∈ e.2 := by rw [hfs]; exact List.mem_cons_self ..
      have := (C160_sources p t m hp ht hm e.1 x.1 x.2).1 ⟨e.2, he, hx⟩
      refine ⟨x.1, x.2, this.1, ?_⟩
      rcases this.2 with h | ⟨h, _⟩ | ⟨h, _⟩
      · exact Or.inr (Or.inr h)
      · exact Or.inr (Or.inl h)
      · exact Or.inl h
  · rintro ⟨f, v, hv, h⟩
    have ex : ∃ w, Has (combine p t m) id f w := by
      by_cases h1 : ∃ w, w ≠ [] ∧ Has m id f w
      · obtain ⟨w, hw, hh⟩ := h1
        exact ⟨w, (C160_sources p t m hp ht hm id f w).2 ⟨hw, Or.inl hh⟩⟩
      · by_cases h2 : ∃ w, w ≠ [] ∧ Has t id f w
        · obtain ⟨w, hw, hh⟩ := h2
          exact ⟨w, (C160_sources p t m hp ht hm id f w).2 ⟨hw, Or.inr (Or.inl ⟨hh, h1⟩)⟩⟩
        · rcases h with h | h | h
          · exact ⟨v, (C160_sources p t m hp ht hm id f v).2 ⟨hv, Or.inr (Or.inr ⟨h, h1, h2⟩)⟩⟩
          · exact absurd ⟨v, hv, h⟩ h2
          · exact absurd ⟨v, hv, h⟩ h1
    obtain ⟨w, fields, hm', _⟩ := ex
    exact List.mem_map.2 ⟨_, hm', rfl⟩

/-! ### Where the texts come from -/

theorem foldl_set_nodup {κ ν α : Type} [DecidableEq κ] (k : α → κ) (v : α → ν) (l : List α) (d : Dict κ ν) (hn : (l.map k).Nodup) (hd : ∀ x ∈ l, k x ∉ Dict.keys d) :
    l.foldl (fun d x => Dict.set d (k x) (v x)) d = d ++ l.map fun x => (k x, v x) := by
  induction l generalizing d with
  | nil => simp
  | cons x xs ih =>
    rw [List.map_cons, List.nodup_cons] at hn
    have hx : k x ∉ Dict.keys d := hd x (List.mem_cons_self ..)
    have hset : ∀ (d : Dict κ ν), k x ∉ Dict.keys d → Dict.set d (k x) (v x) = d ++ [(k x, v x)] := by
      intro d
      induction d with
      | nil => intro _; rfl
      | cons e d ihd =>
        obtain ⟨a, b⟩ := e
        intro h
        have h1 : ¬ a = k x := fun e => h (by rw [← e]; exact List.mem_cons_self ..)
        rw [Dict.set, if_neg h1, ihd (fun hm => h (List.mem_cons_of_mem _ hm))]
        rfl
    rw [List.foldl_cons, hset d hx, ih _ hn.2]
    · simp
    · intro y hy hm
      have : Dict.keys (d ++ [(k x, v x)]) = Dict.keys d ++ [k x] := by simp [Dict.keys]
      rw [this] at hm
      rcases List.mem_append.1 hm with hm | hm
      · exact hd y (List.mem_cons_of_mem _ hy) hm
      · exact hn.1 (by rw [← List.mem_singleton.1 hm]; exact List.mem_map_of_mem hy)

/-- All messages with their level. -/
def allMessages (levels : List (Str × List PylintMessage)) : List (Str × PylintMessage) := levels.flatMap fun l => l.2.map fun m => (l.1, m)

theorem byId_eq {levels : List (Str × List PylintMessage)} (h : ((allMessages levels).map (·.2.id)).Nodup) :
    byId levels = (allMessages levels).map fun m => (m.2.id, m) := by
  have := foldl_set_nodup (fun m : Str × PylintMessage => m.2.id) (fun m => m) (allMessages levels) [] h (fun x _ hm => nomatch hm)
  rw [List.nil_append] at this
  exact this

theorem wf_fromPylint {levels : List (Str × List PylintMessage)} (h : ((allMessages levels).map (·.2.id)).Nodup) : Wf (fromPylint levels) := by
  unfold fromPylint
  rw [byId_eq h]
  refine ⟨by simpa [List.map_map, Function.comp_def] using h, fun e he => ?_⟩
  simp only [List.map_map, List.mem_map] at he
  obtain ⟨m, _, rfl⟩ := he
  show ["why".toList, "examples".toList].Nodup
  decide

theorem has_fromPylint {levels : List (Str × List PylintMessage)} (h : ((allMessages levels).map (·.2.id)).Nodup) {id f v : Str} :
    Has (fromPylint levels) id f v ↔ ∃ m ∈ allMessages levels, m.2.id = id ∧
      ((f = "why".toList ∧ v = friendly m.2.description) ∨ (f = "examples".toList ∧ v = examplesOf m.1 m.2)) := by
  unfold Has fromPylint
  rw [byId_eq h]
  simp only [List.map_map, List.mem_map, Function.comp_def]
  constructor
  · rintro ⟨fields, ⟨m, hm, he⟩, hf⟩
    obtain ⟨rfl, rfl⟩ := Prod.mk.inj he
    refine ⟨m, hm, rfl, ?_⟩
    simpa using hf
  · rintro ⟨m, hm, rfl, hf⟩
    exact ⟨_, ⟨m, hm, rfl⟩, by simpa using hf⟩

theorem wf_fromThonny {checks : List (Str × Option Str)} (h : (checks.map (·.1)).Nodup) : Wf (fromThonny checks) := by
  constructor
  · have : ((fromThonny checks).map (·.1)).Sublist (checks.map (·.1)) := by
      clear h
      induction checks with
      | nil => exact List.Sublist.refl _
      | cons c cs ih =>
        obtain ⟨i, t⟩ := c
        match t with
        | none => exact ih.cons i
        | some [] => exact ih.cons i
        | some (x :: xs) => exact ih.cons_cons i
    exact h.sublist this
  · intro e he
    obtain ⟨c, _, hc⟩ := List.mem_filterMap.1 he
    obtain ⟨i, t⟩ := c
    match t, hc with
    | some [], hc => exact nomatch hc
    | some (x :: xs), hc =>
      rw [← Option.some.inj hc]
      show ["why".toList, "examples".toList].Nodup
      decide

theorem has_fromThonny {checks : List (Str × Option Str)} {id f v : Str} (hv : v ≠ []) :
    Has (fromThonny checks) id f v ↔ f = "why".toList ∧ (id, some v) ∈ checks := by
  unfold Has fromThonny
  constructor
  · rintro ⟨fields, hm, hf⟩
    obtain ⟨c, hc, he⟩ := List.mem_filterMap.1 hm
    obtain ⟨i, t⟩ := c
    match t, he with
    | some [], he => exact nomatch he
    | some (x :: xs), he =>
      have := Option.some.inj he
      obtain ⟨rfl, rfl⟩ := Prod.mk.inj this
      rcases List.mem_cons.1 hf with e | hf
      · obtain ⟨rfl, rfl⟩ := Prod.mk.inj e
        exact ⟨rfl, hc⟩
      · have e := List.mem_singleton.1 hf
        exact absurd (Prod.mk.inj e).2 hv
  · rintro ⟨rfl, hc⟩
    refine ⟨[("why".toList, v), ("examples".toList, [])], List.mem_filterMap.2 ⟨_, hc, ?_⟩, List.mem_cons_self ..⟩
    simp only [if_neg hv]

/-- **C160**, why a message is a problem: what was written by hand, else the explanation of Thonny, else the description of Pylint in friendlier words. (The ids of messages differ in each source.) -/
theorem C160_why (levels : List (Str × List PylintMessage)) (checks : List (Str × Option Str)) (manual : Table)
    (hl : ((allMessages levels).map (·.2.id)).Nodup) (hc : (checks.map (·.1)).Nodup) (hm : Wf manual) (id v : Str) :
    Has (compiled levels checks manual) id "why".toList v ↔ v ≠ [] ∧
      (Has manual id "why".toList v ∨
        ((¬ ∃ w, w ≠ [] ∧ Has manual id "why".toList w) ∧
          ((id, some v) ∈ checks ∨
            ((¬ ∃ w, w ≠ [] ∧ (id, some w) ∈ checks) ∧ ∃ m ∈ levels.flatMap (·.2), m.id = id ∧ v = friendly m.description)))) := by
  unfold compiled
  rw [C160_sources _ _ _ (wf_fromPylint hl) (wf_fromThonny hc) hm]
  have hth : ∀ {w : Str}, w ≠ [] → (Has (fromThonny checks) id "why".toList w ↔ (id, some w) ∈ checks) := fun hw => by
    rw [has_fromThonny hw]; simp
  have hth' : (∃ w, w ≠ [] ∧ Has (fromThonny checks) id "why".toList w) ↔ ∃ w, w ≠ [] ∧ (id, some w) ∈ checks := by
    constructor
    · rintro ⟨w, hw, h⟩; exact ⟨w, hw, (hth hw).1 h⟩
    · rintro ⟨w, hw, h⟩; exact ⟨w, hw, (hth hw).2 h⟩
  have hpy : Has (fromPylint levels) id "why".toList v ↔ ∃ m ∈ levels.flatMap (·.2), m.id = id ∧ v = friendly m.description := by
    rw [has_fromPylint hl]
    constructor
    · rintro ⟨m, hm, rfl, h | h⟩
      · refine ⟨m.2, ?_, rfl, h.2⟩
        obtain ⟨l, hl1, hl2⟩ := List.mem_flatMap.1 hm
        obtain ⟨m', hm', rfl⟩ := List.mem_map.1 hl2
        exact List.mem_flatMap.2 ⟨l, hl1, hm'⟩
      · exact absurd h.1 (by decide)
    · rintro ⟨m, hm, rfl, h⟩
      obtain ⟨l, hl1, hl2⟩ := List.mem_flatMap.1 hm
      exact ⟨(l.1, m), List.mem_flatMap.2 ⟨l, hl1, List.mem_map_of_mem hl2⟩, rfl, Or.inl ⟨rfl, h⟩⟩
  rw [hth', hpy]
  constructor
  · rintro ⟨hv, h | ⟨h, h'⟩ | ⟨h, h', h''⟩⟩
    · exact ⟨hv, Or.inl h⟩
    · exact ⟨hv, Or.inr ⟨h', Or.inl ((hth hv).1 h)⟩⟩
    · exact ⟨hv, Or.inr ⟨h', Or.inr ⟨h'', h⟩⟩⟩
  · rintro ⟨hv, h | ⟨h', h | ⟨h'', h⟩⟩⟩
    · exact ⟨hv, Or.inl h⟩
    · exact ⟨hv, Or.inr (Or.inl ⟨(hth hv).2 h, h'⟩)⟩
    · exact ⟨hv, Or.inr (Or.inr ⟨h, h', h''⟩)⟩

/-- **C160**, examples: what was written by hand, else the examples made of the data of Pylint. -/
theorem C160_examples (levels : List (Str × List PylintMessage)) (checks : List (Str × Option Str)) (manual : Table)
    (hl : ((allMessages levels).map (·.2.id)).Nodup) (hc : (checks.map (·.1)).Nodup) (hm : Wf manual) (id v : Str) :
    Has (compiled levels checks manual) id "examples".toList v ↔ v ≠ [] ∧
      (Has manual id "examples".toList v ∨
        ((¬ ∃ w, w ≠ [] ∧ Has manual id "examples".toList w) ∧ ∃ l ∈ levels, ∃ m ∈ l.2, m.id = id ∧ v = examplesOf l.1 m)) := by
  unfold compiled
  rw [C160_sources _ _ _ (wf_fromPylint hl) (wf_fromThonny hc) hm]
  have hth : ∀ {w : Str}, w ≠ [] → ¬ Has (fromThonny checks) id "examples".toList w := fun hw => by
    rw [has_fromThonny hw]; simp
  have hpy : Has (fromPylint levels) id "examples".toList v ↔ ∃ l ∈ levels, ∃ m ∈ l.2, m.id = id ∧ v = examplesOf l.1 m := by
    rw [has_fromPylint hl]
    constructor
    · rintro ⟨m, hm, rfl, h | h⟩
      · exact absurd h.1 (by decide)
      · obtain ⟨l, hl1, hl2⟩ := List.mem_flatMap.1 hm
        obtain ⟨m', hm', rfl⟩ := List.mem_map.1 hl2
        exact ⟨l, hl1, m', hm', rfl, h.2⟩
    · rintro ⟨l, hl1, m, hm', rfl, h⟩
      exact ⟨(l.1, m), List.mem_flatMap.2 ⟨l, hl1, List.mem_map_of_mem hm'⟩, rfl, Or.inr ⟨rfl, h⟩⟩
  rw [hpy]
  constructor
  · rintro ⟨hv, h | ⟨h, _⟩ | ⟨h, h', _⟩⟩
    · exact ⟨hv, Or.inl h⟩
    · exact absurd h (hth hv)
    · exact ⟨hv, Or.inr ⟨h', h⟩⟩
  · rintro ⟨hv, h | ⟨h', h⟩⟩
    · exact ⟨hv, Or.inl h⟩
    · exact ⟨hv, Or.inr (Or.inr ⟨h, h', fun ⟨w, hw, h⟩ => hth hw h⟩)⟩

/-! ### The texts made of the data of Pylint -/

/-- **C160**, descriptions: "Used when" and "Emitted when" become "It looks like", with the article in definite form; all that follows is kept, and so are other texts. -/
theorem C160_friendly (r : Str) :
    (∀ w ∈ ["Used when ".toList, "Emitted when ".toList],
      friendly (w ++ "an ".toList ++ r) = "It looks like the ".toList ++ r ∧ friendly (w ++ "a ".toList ++ r) = "It looks like the ".toList ++ r ∧
      (¬ "an ".toList <+: r → ¬ "a ".toList <+: r → friendly (w ++ r) = "It looks like ".toList ++ r)) ∧
    (¬ "Used when ".toList <+: r → ¬ "Emitted when ".toList <+: r → friendly r = r) := by
  constructor
  · intro w hw
    simp only [List.mem_cons, List.not_mem_nil, or_false] at hw
    rcases hw with rfl | rfl
    · refine ⟨by simp [friendly, replaceFirst, prefixes, startsWith], by simp [friendly, replaceFirst, prefixes, startsWith], fun h1 h2 => ?_⟩
      have e1 : "an ".toList.isPrefixOf r = false := by cases h : "an ".toList.isPrefixOf r <;> simp_all
      have e2 : "a ".toList.isPrefixOf r = false := by cases h : "a ".toList.isPrefixOf r <;> simp_all
      simp at e1 e2
      simp [friendly, replaceFirst, prefixes, startsWith, e1, e2]
    · refine ⟨by simp [friendly, replaceFirst, prefixes, startsWith], by simp [friendly, replaceFirst, prefixes, startsWith], fun h1 h2 => ?_⟩
      have e1 : "an ".toList.isPrefixOf r = false := by cases h : "an ".toList.isPrefixOf r <;> simp_all
      have e2 : "a ".toList.isPrefixOf r = false := by cases h : "a ".toList.isPrefixOf r <;> simp_all
      simp at e1 e2
      simp [friendly, replaceFirst, prefixes, startsWith, e1, e2]
  · intro h1 h2
    have key : ∀ p : Str, ("Used when ".toList <+: p ∨ "Emitted when ".toList <+: p) → startsWith r p = false := by
      intro p hp
      cases h : startsWith r p with
      | false => rfl
      | true =>
        have hpr : p <+: r := by simpa [startsWith] using h
        rcases hp with hp | hp
        · exact absurd (hp.trans hpr) h1
        · exact absurd (hp.trans hpr) h2
    have k := fun e (he : e ∈ prefixes) => key e.1 (by revert e; decide)
    unfold friendly
    have : ∀ l : List (Str × Str), (∀ e ∈ l, startsWith r e.1 = false) → replaceFirst r l = r := by
      intro l
      induction l with
      | nil => intro _; rfl
      | cons e l ih =>
        intro h
        rw [replaceFirst, if_neg (by rw [h e (List.mem_cons_self ..)]; simp)]
        exact ih fun x hx => h x (List.mem_cons_of_mem _ hx)
    exact this prefixes k

theorem suffix_dropWhile {q : Char → Bool} {xs : Str} {c : Char} {ys : Str} (h : q c = false) : c :: ys <:+ (xs ++ c :: ys).dropWhile q := by
  induction xs with
  | nil => rw [List.nil_append, List.dropWhile_cons, h]; exact List.suffix_refl _
  | cons x xs ih =>
    rw [List.cons_append, List.dropWhile_cons]
    split
    · exact ih
    · exact (List.suffix_append (x :: xs) (c :: ys))

theorem codeBlock_shown {code hd top : Str} (h : ¬ placeholder <:+: code) (ht : "\n**".toList ++ hd ++ "**\n".toList ++ "\n```py\n".toList = '\n' :: top) :
    codeBlock code hd = '\n' :: (top ++ code ++ "\n```\n".toList) := by
  unfold codeBlock
  rw [decide_eq_false h, if_neg Bool.false_ne_true, ← List.append_assoc, ← List.append_assoc, ht]
  simp only [List.cons_append]

theorem codeBlock_hidden {code hd : Str} (h : placeholder <:+: code) : codeBlock code hd = [] := by
  unfold codeBlock
  rw [decide_eq_true h, if_pos rfl]

theorem placeholder_eq : "# This is a placeholder for correct code for this message.".toList = placeholder := by unfold placeholder; rfl

/-- **C160**, code: if there is code with the problem that is no placeholder, the examples begin with it, in a block of code with a headline; if there is code without it, it is among the examples. -/
theorem C160_code (level : Str) (m : PylintMessage) :
    (m.badCode ≠ [] → ¬ "# This is a placeholder for correct code for this message.".toList <:+: m.badCode →
      "**Problematic code**\n\n```py\n".toList ++ m.badCode ++ "\n```\n".toList <+: examplesOf level m) ∧
    (m.goodCode ≠ [] → ¬ "# This is a placeholder for correct code for this message.".toList <:+: m.goodCode →
      "**How to fix it**\n\n```py\n".toList ++ m.goodCode ++ "\n```\n".toList <:+: examplesOf level m) := by
  constructor
  · intro h1 h2
    rw [placeholder_eq] at h2
    have hb := codeBlock_shown (hd := "Problematic code".toList) (top := "**Problematic code**\n\n```py\n".toList) h2 (by decide +kernel)
    unfold examplesOf
    rw [if_neg h1, hb]
    generalize (if m.goodCode = [] then [] else codeBlock m.goodCode "How to fix it".toList) = g
    generalize docLink level m = d
    have hs1 : isSpace '\n' = true := by decide
    have hs2 : isSpace '*' = false := by decide
    refine ⟨g ++ d, ?_⟩
    simp [hs1, hs2]
  · intro h1 h2
    rw [placeholder_eq] at h2
    have hg := codeBlock_shown (hd := "How to fix it".toList) (top := "**How to fix it**\n\n```py\n".toList) h2 (by decide +kernel)
    unfold examplesOf
    rw [if_neg h1, hg]
    generalize (if m.badCode = [] then [] else codeBlock m.badCode "Problematic code".toList) = b
    generalize docLink level m = d
    have hs2 : isSpace '*' = false := by decide
    have := suffix_dropWhile (q := isSpace) (xs := b ++ ['\n']) (c := '*') (ys := "*How to fix it**\n\n```py\n".toList ++ m.goodCode ++ "\n```\n".toList ++ d) hs2
    have e : b ++ '\n' :: ("**How to fix it**\n\n```py\n".toList ++ m.goodCode ++ "\n```\n".toList) ++ d =
        (b ++ ['\n']) ++ '*' :: ("*How to fix it**\n\n```py\n".toList ++ m.goodCode ++ "\n```\n".toList ++ d) := by simp
    rw [e]
    obtain ⟨t, ht⟩ := this
    refine ⟨t, d, ?_⟩
    rw [← ht]
    simp

/-- **C160**, placeholders: code that says that it is a placeholder is left out. -/
theorem C160_placeholder (level : Str) (m : PylintMessage) :
    ("# This is a placeholder for correct code for this message.".toList <:+: m.goodCode → examplesOf level m = examplesOf level { m with goodCode := [] }) ∧
    ("# This is a placeholder for correct code for this message.".toList <:+: m.badCode → examplesOf level m = examplesOf level { m with badCode := [] }) := by
  rw [placeholder_eq]
  constructor
  · intro hp
    unfold examplesOf
    rw [codeBlock_hidden hp, ite_self, if_pos rfl]
    rfl
  · intro hp
    unfold examplesOf
    rw [codeBlock_hidden hp, ite_self, if_pos rfl]
    rfl

/-- **C160**, links: if the documentation has details, other than the request to contribute, the examples end with the link to it; without details there is none. Missing: the request to contribute, for which a link is given, too (`C160_link_counterexample`). -/
theorem C160_link_partial (level : Str) (m : PylintMessage) :
    (m.details ≠ [] → m.details.head? ≠ some '"' →
      "<a href=\"https://pylint.pycqa.org/en/latest/user_guide/messages/".toList ++ level ++ "/".toList ++ m.name ++ ".html\">Additional information</a>".toList <:+ examplesOf level m) ∧
    (m.details = [] → ∀ level' name', examplesOf level m = examplesOf level' { m with name := name' }) := by
  constructor
  · intro h1 h2
    have hn : startsWith m.details nonViable = false := by
      cases hd : m.details with
      | nil => exact absurd hd h1
      | cons c cs =>
        rw [hd] at h2
        have : c ≠ '"' := by simpa using h2
        obtain ⟨t, ht⟩ : ∃ t, nonViable = '"' :: t := ⟨_, by unfold nonViable; simp; rfl⟩
        rw [ht]
        unfold startsWith
        rw [List.isPrefixOf, beq_eq_false_iff_ne.2 (Ne.symm this), Bool.false_and]
    have hl : docLink level m = '\n' :: '<' :: ("a href=\"https://pylint.pycqa.org/en/latest/user_guide/messages/".toList ++ level ++ "/".toList ++ m.name ++ ".html\">Additional information</a>".toList) := by
      unfold docLink
      rw [hn, decide_eq_false h1, if_neg (by decide)]
      have : "\n<a href=\"https://pylint.pycqa.org/en/latest/user_guide/messages/".toList = '\n' :: '<' :: "a href=\"https://pylint.pycqa.org/en/latest/user_guide/messages/".toList := by decide +kernel
      rw [this]
      simp only [List.cons_append]
    unfold examplesOf
    rw [hl]
    generalize (if m.badCode = [] then [] else codeBlock m.badCode "Problematic code".toList) = b
    generalize (if m.goodCode = [] then [] else codeBlock m.goodCode "How to fix it".toList) = g
    have := suffix_dropWhile (q := isSpace) (xs := b ++ g ++ ['\n']) (c := '<')
      (ys := "a href=\"https://pylint.pycqa.org/en/latest/user_guide/messages/".toList ++ level ++ "/".toList ++ m.name ++ ".html\">Additional information</a>".toList) (by decide)
    have e : "<a href=\"https://pylint.pycqa.org/en/latest/user_guide/messages/".toList = '<' :: "a href=\"https://pylint.pycqa.org/en/latest/user_guide/messages/".toList := by decide +kernel
    rw [e]
    simp only [List.cons_append, List.append_assoc, List.nil_append] at this ⊢
    exact this
  · intro h level' name'
    have hd : ∀ l n, docLink l { m with name := n } = [] := fun l n => by
      unfold docLink
      rw [decide_eq_true h, Bool.true_or, if_pos rfl]
    have h0 : docLink level m = [] := hd level m.name
    unfold examplesOf
    rw [h0, hd]

/-- **C160**, blocks of code: as Markdown, the block with the problem, up to the line that ends it, is the code, if no line of it ends the block. Missing: code with such lines, for which this is false (`C160_fence_counterexample`). -/
theorem C160_block_partial (level : Str) (m : PylintMessage) (h1 : m.badCode ≠ []) (h2 : ¬ "# This is a placeholder for correct code for this message.".toList <:+: m.badCode)
    (h3 : "```".toList ∉ splitOn '\n' m.badCode) :
    ∃ rest, splitOn '\n' (examplesOf level m) = ["**Problematic code**".toList, [], "```py".toList] ++ splitOn '\n' m.badCode ++ "```".toList :: rest ∧
      (((splitOn '\n' (examplesOf level m)).drop 3).takeWhile fun l => l != "```".toList) = splitOn '\n' m.badCode := by
  obtain ⟨t, ht⟩ := (C160_code level m).1 h1 h2
  have e : splitOn '\n' (examplesOf level m) = ["**Problematic code**".toList, [], "```py".toList] ++ splitOn '\n' m.badCode ++ "```".toList :: splitOn '\n' t := by
    rw [← ht]
    have e1 : "**Problematic code**\n\n```py\n".toList ++ m.badCode ++ "\n```\n".toList ++ t =
        "**Problematic code**".toList ++ '\n' :: ([] ++ '\n' :: ("```py".toList ++ '\n' :: (m.badCode ++ '\n' :: ("```".toList ++ '\n' :: t)))) := by simp
    rw [e1, splitOn_append_sep, splitOn_append_sep, splitOn_append_sep, splitOn_append_sep, splitOn_append_sep]
    rfl
  refine ⟨splitOn '\n' t, e, ?_⟩
  rw [e]
  show (splitOn '\n' m.badCode ++ "```".toList :: splitOn '\n' t).takeWhile _ = _
  rw [List.takeWhile_append_of_pos (fun l hl => by simp; rintro rfl; exact h3 hl)]
  simp

/-- **C160 is false of the code** for messages whose documentation only asks to contribute: the text that it is compared with begins with a quotation mark that the details do not have, so that a link to a page without details is given. -/
theorem C160_link_counterexample :
    let m : PylintMessage := ⟨"C0103".toList, "invalid-name".toList, [], [], [], "**Additional details:**\n\nYou can help us make the doc better `by contributing".toList⟩
    examplesOf "convention".toList m =
      "<a href=\"https://pylint.pycqa.org/en/latest/user_guide/messages/convention/invalid-name.html\">Additional information</a>".toList := by
  decide +kernel

/-- **C160 is false of the code** for code with a line that ends the block: only what is in front of it is shown as code. -/
theorem C160_fence_counterexample :
    let m : PylintMessage := ⟨"C0103".toList, "invalid-name".toList, [], [], "x = \"\"\"\n```\n\"\"\"".toList, []⟩
    (((splitOn '\n' (examplesOf "convention".toList m)).drop 3).takeWhile fun l => l != "```".toList) = ["x = \"\"\"".toList] ∧
      splitOn '\n' m.badCode = ["x = \"\"\"".toList, "```".toList, "\"\"\"".toList] := by
  decide +kernel

/-! ### Examples -/

/-- One message of Pylint with code, explained by Thonny, too; one that is explained by hand. -/
def exLevels : List (Str × List PylintMessage) :=
  [("warning".toList, [⟨"W1".toList, "w".toList, "Used when a name is bad.".toList, [], "x".toList, []⟩]),
   ("error".toList, [⟨"E1".toList, "e".toList, "Emitted when no value is given.".toList, [], [], []⟩])]
@[inherit_doc exLevels] def exManual : Table := [("E1".toList, [("examples".toList, "Give one.".toList)]), ("R1".toList, [("why".toList, []), ("examples".toList, [])])]

example : compiled exLevels [("W1".toList, some "Names matter.".toList), ("E1".toList, none)] exManual =
    [("W1".toList, [("why".toList, "Names matter.".toList), ("examples".toList, "**Problematic code**\n\n```py\nx\n```\n".toList)]),
     ("E1".toList, [("why".toList, "It looks like no value is given.".toList), ("examples".toList, "Give one.".toList)])] := by decide +kernel

/-- The messages that the theorems speak of exist. -/
example : Has (compiled exLevels [("W1".toList, some "Names matter.".toList), ("E1".toList, none)] exManual) "W1".toList "why".toList "Names matter.".toList :=
  (C160_why exLevels [("W1".toList, some "Names matter.".toList), ("E1".toList, none)] exManual (by decide) (by decide) (by unfold Wf; decide) _ _).2
    ⟨by decide, Or.inr ⟨by
      rintro ⟨w, hw, fields, h1, h2⟩
      simp [exManual] at h1, Or.inl (by decide)⟩⟩

end Verif.CompileExpls
