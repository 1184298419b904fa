import Verif.Model.Explanations

/-!
C45, C58, C59: explanations of messages.
-/

namespace Verif

/-! ### C45 -/

/-- Whatever was downloaded, the distributed explanations are shown. -/
theorem C45_always_distributed (parse : Str → Option Expls) (distributed : Str) (d : ExplDisk) :
    getExplanations parse distributed d =
      match parse distributed with
      | none => .error .valueError
      | some e => .ok e := by
  unfold getExplanations loadUpdated
  cases hd : d.online with
  | none => rfl
  | some t =>
    cases hp : parse distributed with
    | none => simp
    | some e =>
      cases e with
      | nil => simp
      | cons x xs => simp

/-- **C45**, the second half: as long as there was no successful update, the distributed explanations are shown.
Missing: that a successful update has an effect, which is false (see the counterexample). -/
theorem C45_distributed_partial (parse : Str → Option Expls) (distributed : Str) (e : Expls) (he : parse distributed = some e)
    (us : List ExplUpdate) (_hno : ∀ u ∈ us, ∀ a, u.answer = some a → a.status ≠ 200) :
    getExplanations parse distributed (explUpdates {} us).1 = .ok e := by
  rw [C45_always_distributed, he]

/-- **C45 is false of the code**: after a successful update, the old explanations are still shown. -/
theorem C45_counterexample :
    ∃ (parse : Str → Option Expls) (distributed text : Str) (old new : Expls), parse distributed = some old ∧
      parse text = some new ∧ old ≠ new ∧ ∃ us : List ExplUpdate,
        (explUpdates {} us).1.online = some text ∧
        getExplanations parse distributed (explUpdates {} us).1 = .ok old := by
  refine ⟨fun t => some [(t, {})], ['o'], ['n'], [(['o'], {})], [(['n'], {})], rfl, rfl, by decide,
    [{ now := 1000, start := 1000, answer := some ⟨200, ['n']⟩ }], rfl, rfl⟩

/-! ### C58 -/

/-- The elements of a list at their first occurrence. -/
def firsts : List Str → List Str
  | [] => []
  | x :: xs => x :: (firsts xs).filter (· ≠ x)

theorem firsts_nodup (l : List Str) : (firsts l).Nodup := by
  induction l with
  | nil => exact List.nodup_nil
  | cons x xs ih =>
    refine List.nodup_cons.2 ⟨?_, ih.filter _⟩
    simp

theorem mem_firsts {l : List Str} {x : Str} : x ∈ firsts l ↔ x ∈ l := by
  induction l with
  | nil => simp [firsts]
  | cons y ys ih =>
    simp only [firsts, List.mem_cons, List.mem_filter, ih, decide_eq_true_eq]
    by_cases h : x = y <;> simp [h]

theorem collectExpls_eq (all acc : Expls) (ids : List Str) :
    collectExpls all acc ids = (ids.filterMap fun id => (Dict.get? all id).map (id, ·)).foldl
      (fun acc kv => Dict.set acc kv.1 kv.2) acc := by
  induction ids generalizing acc with
  | nil => rfl
  | cons id ids ih =>
    cases h : Dict.get? all id with
    | none => simp [collectExpls, h, ih]
    | some e => simp [collectExpls, h, ih]

/-- Explanations of the given ids. -/
def assoc (all : Expls) (ids : List Str) : Expls :=
  ids.filterMap fun id => (Dict.get? all id).map (id, ·)

theorem set_absent (d : Expls) (k : Str) (v : Expl) (h : k ∉ Dict.keys d) : Dict.set d k v = d ++ [(k, v)] := by
  induction d with
  | nil => rfl
  | cons p d ih =>
    obtain ⟨k', v'⟩ := p
    simp only [Dict.keys, List.map_cons, List.mem_cons, not_or] at h
    have h' : ¬ k' = k := fun e => h.1 e.symm
    simp [Dict.set, h', ih h.2]

theorem set_same (d : Expls) (k : Str) (v : Expl) (h : (k, v) ∈ d) (hn : (Dict.keys d).Nodup) : Dict.set d k v = d := by
  induction d with
  | nil => cases h
  | cons p d ih =>
    obtain ⟨k', v'⟩ := p
    simp only [Dict.keys, List.map_cons, List.nodup_cons] at hn
    simp only [Dict.set]
    split
    · rename_i hk
      subst hk
      rcases List.mem_cons.1 h with h | h
      · cases h; rfl
      · exact absurd (List.mem_map_of_mem (f := (·.1)) h) hn.1
    · rename_i hk
      rcases List.mem_cons.1 h with h | h
      · cases h; exact absurd rfl hk
      · rw [ih h hn.2]

theorem assoc_keys (all : Expls) (ids : List Str) : Dict.keys (assoc all ids) = ids.filter fun id => (Dict.get? all id).isSome := by
  induction ids with
  | nil => rfl
  | cons id ids ih =>
    cases h : Dict.get? all id with
    | none => simpa [assoc, Dict.keys, h] using ih
    | some e => simpa [assoc, Dict.keys, h] using ih

theorem collectExpls_acc (all : Expls) (done ids : List Str) (hd : done.Nodup) :
    collectExpls all (assoc all done) ids = assoc all (done ++ (firsts ids).filter (· ∉ done)) := by
  induction ids generalizing done with
  | nil => simp [collectExpls, firsts]
  | cons id ids ih =>
    simp only [collectExpls]
    have hf : ∀ P : Str → Bool, (firsts (id :: ids)).filter P =
        if P id then id :: ((firsts ids).filter (· ≠ id)).filter P else ((firsts ids).filter (· ≠ id)).filter P := by
      intro P
      simp only [firsts, List.filter_cons]
    by_cases hmem : id ∈ done
    · have hrest : (firsts (id :: ids)).filter (· ∉ done) = (firsts ids).filter (· ∉ done) := by
        rw [hf]
        simp only [hmem, not_true_eq_false, decide_false, Bool.false_eq_true, if_false, List.filter_filter]
        refine List.filter_congr ?_
        intro x _
        by_cases hx : x ∈ done
        · simp [hx]
        · have : x ≠ id := fun e => hx (e ▸ hmem)
          simp [hx, this]
      rw [hrest]
      split
      · exact ih done hd
      · rename_i e he
        rw [set_same]
        · exact ih done hd
        · exact List.mem_filterMap.2 ⟨id, hmem, by simp [he]⟩
        · rw [assoc_keys]; exact hd.filter _
    · have hd' : (done ++ [id]).Nodup := by
        rw [List.nodup_append]
        refine ⟨hd, by simp, ?_⟩
        rintro a ha b hb rfl
        simp only [List.mem_singleton] at hb
        subst hb
        exact hmem ha
      have hrest : (firsts (id :: ids)).filter (· ∉ done) = id :: (firsts ids).filter (· ∉ done ++ [id]) := by
        rw [hf]
        simp only [hmem, not_false_eq_true, decide_true, if_true, List.filter_filter]
        refine congrArg _ (List.filter_congr ?_)
        intro x _
        simp [Bool.and_comm]
      rw [hrest]
      have happ : done ++ id :: (firsts ids).filter (· ∉ done ++ [id]) =
          (done ++ [id]) ++ (firsts ids).filter (· ∉ done ++ [id]) := by simp
      rw [happ, ← ih (done ++ [id]) hd']
      split
      · rename_i he
        simp [assoc, he]
      · rename_i e he
        rw [set_absent]
        · simp [assoc, he]
        · rw [assoc_keys]
          simp [hmem]

/-- **C58.** Explaining the given ids yields exactly the known ones among them, each once, in the order of first
request, with the explanation the table has for it. -/
theorem C58_requested (all : Expls) (ids : List Str) :
    messageExpls all (some ids) =
      (firsts ids).filterMap fun id => (Dict.get? all id).map (id, ·) := by
  have := collectExpls_acc all [] ids List.nodup_nil
  have hall : (firsts ids).filter (· ∉ ([] : List Str)) = firsts ids := List.filter_eq_self.2 (by simp)
  rw [hall] at this
  exact this

/-- **C58**, without ids: all explanations, unchanged. -/
theorem C58_all (all : Expls) (h : (Dict.keys all).Nodup) : messageExpls all none = all := by
  have hf : ∀ l : List Str, l.Nodup → firsts l = l := by
    intro l hl
    induction l with
    | nil => rfl
    | cons x xs ih =>
      rw [List.nodup_cons] at hl
      rw [firsts, ih hl.2, List.filter_eq_self.2]
      intro a ha
      simp only [decide_eq_true_eq]
      rintro rfl
      exact hl.1 ha
  have h1 : messageExpls all none = messageExpls all (some (Dict.keys all)) := rfl
  rw [h1, C58_requested, hf _ h]
  have key : ∀ d : Expls, (∀ k v, (k, v) ∈ d → Dict.get? all k = some v) →
      ((Dict.keys d).filterMap fun id => (Dict.get? all id).map (id, ·)) = d := by
    intro d hd
    induction d with
    | nil => rfl
    | cons p d ih =>
      obtain ⟨k, v⟩ := p
      have hg := hd k v (by simp)
      have := ih fun k v hm => hd k v (by simp [hm])
      simp only [Dict.keys, List.map_cons, List.filterMap_cons, hg, Option.map_some]
      exact congrArg _ this
  exact key all fun k v hm => Dict.get?_of_mem_nodup hm h

example : messageExpls [("W1".toList, { why := some "w".toList }), ("W2".toList, {})]
    (some ["W2".toList, "E0".toList, "W1".toList, "W2".toList]) =
      [("W2".toList, {}), ("W1".toList, { why := some "w".toList })] := by decide

/-- What is printed about one message: its parts which are not blank, without surrounding white space. -/
def partsPrinted (e : Expl) (out : List Str) : Prop :=
  ∃ a b, out = a ++ b ∧
    (match e.why with
      | none => a = []
      | some w => if ∀ c ∈ w, isSpace c then a = [] else a = ["### Why is it a problem?".toList, strip w, []]) ∧
    (match e.examples with
      | none => b = []
      | some w => if ∀ c ∈ w, isSpace c then b = [] else b = ["### How to solve it?".toList, strip w])

theorem dropWhile_nil {p : Char → Bool} {l : Str} : l.dropWhile p = [] ↔ ∀ c ∈ l, p c = true := by
  induction l with
  | nil => simp
  | cons x xs ih =>
    cases h : p x with
    | true => simp [h, ih]
    | false => simp [h]

theorem strip_eq_nil (s : Str) : strip s = [] ↔ ∀ c ∈ s, isSpace c = true := by
  unfold strip
  constructor
  · intro h
    have h1 : ∀ c ∈ s.dropWhile isSpace, isSpace c = true := by
      rw [List.reverse_eq_nil_iff] at h
      rw [dropWhile_nil] at h
      intro c hc
      exact h c (List.mem_reverse.2 hc)
    have h2 : s.dropWhile isSpace = [] := by
      cases hd : s.dropWhile isSpace with
      | nil => rfl
      | cons x xs =>
        have hx := List.head?_dropWhile_not isSpace s
        rw [hd] at hx h1
        simp only [List.head?_cons] at hx
        rw [h1 x (by simp)] at hx
        cases hx
    exact dropWhile_nil.1 h2
  · intro h
    rw [dropWhile_nil.2 h]
    rfl

theorem partsPrinted_lines (e : Expl) : partsPrinted e (whyLines e ++ exampleLines e) := by
  refine ⟨_, _, rfl, ?_, ?_⟩
  · cases hw : e.why with
    | none => simp only [whyLines, hw]; rfl
    | some w =>
      simp only [whyLines, hw, Option.getD_some]
      by_cases h : ∀ c ∈ w, isSpace c = true
      · rw [if_pos h, if_neg (not_not_intro ((strip_eq_nil w).2 h))]
      · rw [if_neg h, if_pos (fun hs => h ((strip_eq_nil w).1 hs))]
  · cases hw : e.examples with
    | none => simp only [exampleLines, hw]; rfl
    | some w =>
      simp only [exampleLines, hw, Option.getD_some]
      by_cases h : ∀ c ∈ w, isSpace c = true
      · rw [if_pos h, if_neg (not_not_intro ((strip_eq_nil w).2 h))]
      · rw [if_neg h, if_pos (fun hs => h ((strip_eq_nil w).1 hs))]

/-- The messages explained for the given arguments of `edulint explain`. -/
def explained (all : Expls) (ids : List Str) : Expls :=
  if ∃ id ∈ ids, lower id = "all".toList then all
  else (firsts ids).filterMap fun id => (Dict.get? all id).map (id, ·)

theorem explain_eq (all : Expls) (h : (Dict.keys all).Nodup) (ids : List Str) :
    explain all ids = explainLoop (decide ((explained all ids).length > 1)) true (explained all ids) := by
  have : messageExpls all (if ids.any fun id => lower id = "all".toList then none else some ids) = explained all ids := by
    unfold explained
    by_cases ha : ∃ id ∈ ids, lower id = "all".toList
    · rw [if_pos ha, if_pos, C58_all all h]
      obtain ⟨id, hid, hl⟩ := ha
      exact List.any_eq_true.2 ⟨id, hid, decide_eq_true hl⟩
    · rw [if_neg ha, if_neg, C58_requested]
      intro hany
      obtain ⟨id, hid, hl⟩ := List.any_eq_true.1 hany
      exact ha ⟨id, hid, of_decide_eq_true hl⟩
  unfold explain
  rw [this]

theorem loop_many (d : Expls) : ∃ bodies : List (List Str),
    bodies.length = d.length ∧ (∀ (i : Nat) (e : Str × Expl) body, d[i]? = some e → bodies[i]? = some body → partsPrinted e.2 body) ∧
    explainLoop true false d = (d.zip bodies).flatMap (fun p => [['\n'], "## ".toList ++ p.1.1] ++ p.2) := by
  induction d with
  | nil => exact ⟨[], rfl, by simp, rfl⟩
  | cons p d ih =>
    obtain ⟨bodies, h1, h2, h3⟩ := ih
    obtain ⟨id, e⟩ := p
    refine ⟨(whyLines e ++ exampleLines e) :: bodies, by simp [h1], ?_, ?_⟩
    · intro i e' body he hb
      cases i with
      | zero =>
        simp only [List.getElem?_cons_zero, Option.some.injEq] at he hb
        subst he hb
        exact partsPrinted_lines e
      | succ i => exact h2 i e' body (by simpa using he) (by simpa using hb)
    · rw [explainLoop, h3, List.zip_cons_cons, List.flatMap_cons]
      simp only [if_true, Bool.false_eq_true, if_false, List.append_assoc, List.cons_append, List.nil_append]

/-- **C58**, printing: one explained message is printed without a header; several are printed in order, each below a
header with its id, with two empty lines between two of them. -/
theorem C58_printed (all : Expls) (h : (Dict.keys all).Nodup) (ids : List Str) :
    ∃ bodies : List (List Str), bodies.length = (explained all ids).length ∧
      (∀ (i : Nat) (e : Str × Expl) body, (explained all ids)[i]? = some e → bodies[i]? = some body → partsPrinted e.2 body) ∧
      explain all ids =
        if (explained all ids).length = 1 then bodies.flatten
        else (((explained all ids).zip bodies).map fun p => ("## ".toList ++ p.1.1) :: p.2).intersperse [['\n']] |>.flatten := by
  rw [explain_eq all h ids]
  generalize explained all ids = d
  cases d with
  | nil => exact ⟨[], rfl, by simp, by simp [explainLoop]⟩
  | cons p d =>
    obtain ⟨id, e⟩ := p
    have hcons : ∀ (bodies : List (List Str)),
        (∀ (i : Nat) (e : Str × Expl) body, d[i]? = some e → bodies[i]? = some body → partsPrinted e.2 body) →
        ∀ (i : Nat) (e' : Str × Expl) body, ((id, e) :: d)[i]? = some e' → ((whyLines e ++ exampleLines e) :: bodies)[i]? = some body →
          partsPrinted e'.2 body := by
      intro bodies h2 i e' body he hb
      cases i with
      | zero =>
        simp only [List.getElem?_cons_zero, Option.some.injEq] at he hb
        subst he hb
        exact partsPrinted_lines e
      | succ i => exact h2 i e' body (by simpa using he) (by simpa using hb)
    cases d with
    | nil =>
      refine ⟨[whyLines e ++ exampleLines e], rfl, hcons [] (by simp), ?_⟩
      rw [if_pos (show [(id, e)].length = 1 from rfl)]
      show whyLines e ++ exampleLines e ++ [] = [whyLines e ++ exampleLines e].flatten
      simp only [List.flatten_cons, List.flatten_nil]
    | cons q d =>
      obtain ⟨bodies, h1, h2, h3⟩ := loop_many (q :: d)
      refine ⟨(whyLines e ++ exampleLines e) :: bodies, by simp [h1], hcons bodies h2, ?_⟩
      have hlen : decide (((id, e) :: q :: d).length > 1) = true := by simp
      have hne : ((id, e) :: q :: d).length ≠ 1 := by simp
      rw [if_neg hne, hlen, explainLoop, h3]
      have key : ∀ (l : List ((Str × Expl) × List Str)) (x : List Str),
          x ++ l.flatMap (fun p => [['\n'], "## ".toList ++ p.1.1] ++ p.2) =
            ((x :: l.map fun p => ("## ".toList ++ p.1.1) :: p.2).intersperse [['\n']]).flatten := by
        intro l
        induction l with
        | nil => intro x; simp only [List.flatMap_nil, List.map_nil, List.intersperse_singleton, List.flatten_cons, List.flatten_nil]
        | cons y l ih =>
          intro x
          rw [List.flatMap_cons, List.map_cons, List.intersperse_cons_cons, List.flatten_cons, List.flatten_cons, ← ih]
          simp only [List.cons_append, List.nil_append]
      rw [List.zip_cons_cons, List.map_cons, ← key]
      simp only [if_true, List.append_assoc, List.cons_append, List.nil_append]

example : explain [("W1".toList, { why := some " w\n".toList }), ("W2".toList, { examples := some "e".toList })] ["ALL".toList] =
    ["## W1".toList, "### Why is it a problem?".toList, "w".toList, [], ['\n'], "## W2".toList, "### How to solve it?".toList,
      "e".toList] := by decide

/-! ### C59 -/

theorem last_step (d : ExplDisk) (u : ExplUpdate) (httl : u.now ≤ u.start) (t : Int) (h : ∃ t', d.last = some t' ∧ t ≤ t') :
    ∃ t', (updateExplanations d u).1.last = some t' ∧ t ≤ t' := by
  obtain ⟨t', h1, h2⟩ := h
  unfold updateExplanations
  split
  · exact ⟨t', h1, h2⟩
  · rename_i hlt
    rw [h1] at hlt
    simp only [Option.getD_some] at hlt
    have : t ≤ u.start := by omega
    cases u.answer with
    | none => exact ⟨_, rfl, this⟩
    | some a =>
      simp only
      split
      · exact ⟨_, rfl, this⟩
      · cases u.written <;> exact ⟨_, rfl, this⟩

theorem request_last {d : ExplDisk} {u : ExplUpdate} {t : Int} (h : (updateExplanations d u).2 = some t) :
    (updateExplanations d u).1.last = some t := by
  unfold updateExplanations at h ⊢
  split
  · rename_i hlt
    rw [if_pos hlt] at h
    cases h
  · rename_i hlt
    rw [if_neg hlt] at h
    cases hu : u.answer with
    | none => simp only [hu] at h ⊢; exact h
    | some a =>
      simp only [hu] at h ⊢
      split
      · rename_i hs; rw [if_pos hs] at h; exact h
      · rename_i hs
        rw [if_neg hs] at h
        cases hw : u.written <;> · simp only [hw] at h ⊢; exact h

theorem request_now {d : ExplDisk} {u : ExplUpdate} {t : Int} (h : (updateExplanations d u).2 = some t) :
    d.last.getD 0 + 600 ≤ u.now := by
  unfold updateExplanations at h
  split at h
  · cases h
  · omega

theorem requests_after (us : List ExplUpdate) (hclock : ∀ u ∈ us, u.now ≤ u.start) (d : ExplDisk) (t : Int)
    (h : ∃ t', d.last = some t' ∧ t ≤ t') (j : Nat) (u : ExplUpdate) (tj : Int) (hu : us[j]? = some u)
    (hj : (explUpdates d us).2[j]? = some (some tj)) : t + 600 ≤ u.now := by
  induction us generalizing d j with
  | nil => simp at hu
  | cons v us ih =>
    cases j with
    | zero =>
      simp only [List.getElem?_cons_zero, Option.some.injEq] at hu
      subst hu
      simp only [explUpdates, List.getElem?_cons_zero, Option.some.injEq] at hj
      have := request_now hj
      obtain ⟨t', h1, h2⟩ := h
      rw [h1] at this
      simp only [Option.getD_some] at this
      omega
    | succ j =>
      exact ih (fun u hu => hclock u (List.mem_cons_of_mem _ hu)) _
        (last_step d v (hclock v (by simp)) t h) j (by simpa using hu) (by simpa [explUpdates] using hj)

/-- **C45**, what is stored: after any history of updates the stored explanations are those of the beginning, or
they were sent with the status 200 in one of the updates; if that update was not interrupted while writing them, they
are complete. -/
theorem C45_stored (d : ExplDisk) (us : List ExplUpdate) :
    (explUpdates d us).1.online = d.online ∨
      ∃ u ∈ us, ∃ text, u.answer = some ⟨200, text⟩ ∧
        (explUpdates d us).1.online = some (match u.written with | none => text | some n => text.take n) := by
  induction us generalizing d with
  | nil => exact .inl rfl
  | cons v us ih =>
    have hstep : (updateExplanations d v).1.online = d.online ∨ ∃ text, v.answer = some ⟨200, text⟩ ∧
        (updateExplanations d v).1.online = some (match v.written with | none => text | some n => text.take n) := by
      unfold updateExplanations
      split
      · exact .inl rfl
      · split
        · exact .inl rfl
        · rename_i a ha
          split
          · exact .inl rfl
          · rename_i hst
            have hst : a.status = 200 := by simpa using hst
            obtain ⟨st, text⟩ := a
            simp only at hst
            subst hst
            refine .inr ⟨text, ha, ?_⟩
            cases v.written <;> rfl
    simp only [explUpdates]
    rcases ih (updateExplanations d v).1 with h | ⟨u, hu, text, h1, h2⟩
    · rcases hstep with h' | ⟨text, h1, h2⟩
      · exact .inl (h.trans h')
      · exact .inr ⟨v, by simp, text, h1, h.trans h2⟩
    · exact .inr ⟨u, List.mem_cons_of_mem _ hu, text, h1, h2⟩

example : (explUpdates {} [⟨1000, 1001, some ⟨404, ['e']⟩, none⟩, ⟨1700, 1700, some ⟨200, ['n']⟩, none⟩]).1.online =
    some ['n'] := by decide

/-- **C59.** In any history of updates, whatever the server answers and however they end, two requests are at least
ten minutes apart (assuming that the clock does not go back within a run). -/
theorem C59_one_request (d : ExplDisk) (us : List ExplUpdate) (hclock : ∀ u ∈ us, u.now ≤ u.start) (i j : Nat) (hij : i < j)
    (ti tj : Int) (u : ExplUpdate) (hu : us[j]? = some u) (hi : (explUpdates d us).2[i]? = some (some ti))
    (hj : (explUpdates d us).2[j]? = some (some tj)) : ti + 600 ≤ u.now := by
  induction us generalizing d i j with
  | nil => simp at hu
  | cons v us ih =>
    cases j with
    | zero => omega
    | succ j =>
      cases i with
      | zero =>
        simp only [explUpdates, List.getElem?_cons_zero, Option.some.injEq] at hi
        exact requests_after us (fun u hu => hclock u (List.mem_cons_of_mem _ hu)) _ ti
          ⟨ti, request_last hi, Int.le_refl _⟩ j u tj (by simpa using hu) (by simpa [explUpdates] using hj)
      | succ i =>
        exact ih _ (fun u hu => hclock u (List.mem_cons_of_mem _ hu)) i j (by omega) (by simpa using hu)
          (by simpa [explUpdates] using hi) (by simpa [explUpdates] using hj)

/-- **C59**, the other direction: once ten minutes have passed, the next update does ask again. -/
theorem C59_asks_again (d : ExplDisk) (u : ExplUpdate) (h : d.last.getD 0 + 600 ≤ u.now) :
    (updateExplanations d u).2 = some u.start := by
  unfold updateExplanations
  rw [if_neg (by omega)]
  cases u.answer with
  | none => rfl
  | some a =>
    simp only
    split
    · rfl
    · cases u.written <;> rfl

example : (explUpdates {} [⟨1000, 1001, none, none⟩, ⟨1500, 1500, none, none⟩, ⟨1601, 1602, some ⟨200, ['n']⟩, none⟩]).2 =
    [some 1001, none, some 1602] := by decide

end Verif
