import Verif.Model.Reaching

/-! Reaching definitions within a block. -/

namespace Verif.Cfg

/-- The event by which an item of a block itself (not a function called there) gives `v` a new value. -/
def killsVar (v : Nat) : Item → Option Event
  | .own e => if e.var = v ∧ e.type.kills = true then some e else none
  | .called _ => none

/-- The last such event. -/
def lastKill (v : Nat) (its : List Item) : Option Event := its.foldl (fun acc it => (killsVar v it).or acc) none

theorem lastKill_append (v : Nat) (its : List Item) (it : Item) :
    lastKill v (its ++ [it]) = (killsVar v it).or (lastKill v its) := by
  simp [lastKill]

/-- No function called gives `v` a value; it may read it. -/
def NoCalled (v : Nat) (its : List Item) : Prop := ∀ e, Item.called e ∈ its → e.var = v → e.type = .read

/-- The `k`-th item is the event `e`, of the block itself or of a function called there. -/
def EventAt (its : List Item) (k : Nat) (e : Event) : Prop := its[k]? = some (.own e) ∨ its[k]? = some (.called e)

theorem exists_snoc {pre : List Item} {it x : Item} {Q : List Item → Prop} :
    (∃ k, (pre ++ [it])[k]? = some x ∧ Q ((pre ++ [it]).take k)) ↔
      (∃ k, pre[k]? = some x ∧ Q (pre.take k)) ∨ (it = x ∧ Q pre) := by
  constructor
  · rintro ⟨k, hk, hq⟩
    rcases Nat.lt_trichotomy k pre.length with h | h | h
    · rw [List.getElem?_append_left h] at hk
      rw [List.take_append_of_le_length (by omega)] at hq
      exact .inl ⟨k, hk, hq⟩
    · subst h
      simp only [List.getElem?_append_right (Nat.le_refl _), Nat.sub_self, List.getElem?_cons_zero,
        Option.some.injEq] at hk
      rw [List.take_left'] at hq
      · exact .inr ⟨hk, hq⟩
      · rfl
    · rw [List.getElem?_eq_none (by simp; omega)] at hk
      cases hk
  · rintro (⟨k, hk, hq⟩ | ⟨rfl, hq⟩)
    · have hlt : k < pre.length := (List.getElem?_eq_some_iff.1 hk).1
      refine ⟨k, by rw [List.getElem?_append_left hlt, hk], ?_⟩
      rwa [List.take_append_of_le_length (by omega)]
    · refine ⟨pre.length, by simp, ?_⟩
      rwa [List.take_left']
      rfl

theorem exists_snoc_at {pre : List Item} {it : Item} {x : Event} {Q : List Item → Prop} :
    (∃ k, EventAt (pre ++ [it]) k x ∧ Q ((pre ++ [it]).take k)) ↔
      (∃ k, EventAt pre k x ∧ Q (pre.take k)) ∨ ((it = .own x ∨ it = .called x) ∧ Q pre) := by
  simp only [EventAt, or_and_right, exists_or, exists_snoc]
  constructor
  · rintro ((h | h) | (h | h))
    · exact .inl (.inl h)
    · exact .inr (.inl h)
    · exact .inl (.inr h)
    · exact .inr (.inr h)
  · rintro ((h | h) | (h | h))
    · exact .inl (.inl h)
    · exact .inr (.inl h)
    · exact .inl (.inr h)
    · exact .inr (.inr h)

theorem mem_addLinks {e x d : Event} : ∀ (ds : List Event) (links : List (Event × Event)),
    (x, d) ∈ addLinks links e ds ↔ (x, d) ∈ links ∨ (x = e ∧ d ∈ ds)
  | [], links => by simp [addLinks]
  | c :: ds, links => by
    have ih := mem_addLinks (e := e) (x := x) (d := d) ds (if (e, c) ∈ links then links else links ++ [(e, c)])
    have hstep : addLinks links e (c :: ds) = addLinks (if (e, c) ∈ links then links else links ++ [(e, c)]) e ds := rfl
    rw [hstep, ih]
    by_cases hc : (e, c) ∈ links
    · simp only [hc, if_true, List.mem_cons]
      constructor
      · rintro (h | ⟨h, h'⟩)
        · exact .inl h
        · exact .inr ⟨h, .inr h'⟩
      · rintro (h | ⟨h, h' | h'⟩)
        · exact .inl h
        · subst h h'; exact .inl hc
        · exact .inr ⟨h, h'⟩
    · simp only [hc, if_false, List.mem_append, Prod.mk.injEq, List.mem_cons, List.not_mem_nil, or_false]
      constructor
      · rintro ((h | ⟨h, h'⟩) | ⟨h, h'⟩)
        · exact .inl h
        · exact .inr ⟨h, .inl h'⟩
        · exact .inr ⟨h, .inr h'⟩
      · rintro (h | ⟨h, h' | h'⟩)
        · exact .inl (.inl h)
        · exact .inl (.inr ⟨h, h'⟩)
        · exact .inr ⟨h, h'⟩

structure ScanInv (v : Nat) (pre : List Item) (d0 r0 : List (Event × Event)) (s : Scan) : Prop where
  none_ : lastKill v pre = none → s.kill v = []
  last : ∀ d, lastKill v pre = some d → (s.kill v).getLast? = some [d]
  first : (s.kill v).head? = (pre.findSome? (killsVar v)).map fun d => [d]
  gens : ∀ e, e ∈ s.gens v ↔ ∃ k, EventAt pre k e ∧
    (e.var = v ∧ e.type.generates = true ∧ lastKill v (pre.take k) = none)
  defs : ∀ e d, e.var = v → ((e, d) ∈ s.definitions ↔ (e, d) ∈ d0 ∨ ∃ k, EventAt pre k e ∧
    (e.type.generates = true ∧ lastKill v (pre.take k) = some d))
  redefs : ∀ e d, e.var = v → ((e, d) ∈ s.redefines ↔ (e, d) ∈ r0 ∨ ∃ k, pre[k]? = some (.own e) ∧
    (e.type.kills = true ∧ lastKill v (pre.take k) = some d))

theorem lastKills_of {v : Nat} {pre : List Item} {d0 r0 : List (Event × Event)} {s : Scan} (h : ScanInv v pre d0 r0 s) :
    ∀ d, d ∈ lastKills (s.kill v) ↔ lastKill v pre = some d := by
  intro d
  cases hl : lastKill v pre with
  | none => simp [lastKills, h.none_ hl]
  | some c => simp [lastKills, h.last c hl, eq_comm]

theorem kill_nil_iff {v : Nat} {pre : List Item} {d0 r0 : List (Event × Event)} {s : Scan} (h : ScanInv v pre d0 r0 s) :
    s.kill v = [] ↔ lastKill v pre = none := by
  constructor
  · intro hk
    cases hl : lastKill v pre with
    | none => rfl
    | some c =>
      have := h.last c hl
      rw [hk] at this
      cases this
  · exact h.none_

/-- What an event that is not of `v` does is not visible in what is kept for `v`. -/
theorem item_other {v : Nat} (s : Scan) (it : Item) (e : Event) (hit : it = .own e ∨ it = .called e) (hv : e.var ≠ v) :
    (s.item it).kill v = s.kill v ∧ (s.item it).gens v = s.gens v ∧
    (∀ x d, x.var = v → ((x, d) ∈ (s.item it).definitions ↔ (x, d) ∈ s.definitions)) ∧
    (∀ x d, x.var = v → ((x, d) ∈ (s.item it).redefines ↔ (x, d) ∈ s.redefines)) := by
  have hx : ∀ (x : Event), x.var = v → x ≠ e := fun x hx heq => hv (heq ▸ hx)
  have hg : (s.generate e).kill = s.kill ∧ (s.generate e).gens v = s.gens v ∧ (s.generate e).redefines = s.redefines ∧
      (∀ x d, x.var = v → ((x, d) ∈ (s.generate e).definitions ↔ (x, d) ∈ s.definitions)) := by
    unfold Scan.generate
    split
    · split
      · exact ⟨rfl, by simp [setAt, Ne.symm hv], rfl, fun _ _ _ => Iff.rfl⟩
      · refine ⟨rfl, rfl, rfl, fun x d h => ?_⟩
        simp [mem_addLinks, hx x h]
    · exact ⟨rfl, rfl, rfl, fun _ _ _ => Iff.rfl⟩
  obtain ⟨g1, g2, g3, g4⟩ := hg
  rcases hit with rfl | rfl
  · simp only [Scan.item, Scan.own]
    split
    · refine ⟨by simp [setAt, Ne.symm hv, g1], g2, g4, fun x d h => ?_⟩
      simp [mem_addLinks, hx x h, g3]
    · exact ⟨by rw [g1], g2, g4, fun x d _ => by rw [g3]⟩
  · simp only [Scan.item, Scan.called]
    split
    · split
      · exact ⟨by simp [setAt, Ne.symm hv, g1], g2, g4, fun x d _ => by rw [g3]⟩
      · refine ⟨by simp [setAt, Ne.symm hv, g1], g2, g4, fun x d h => ?_⟩
        simp [mem_addLinks, hx x h, g3]
    · exact ⟨by rw [g1], g2, g4, fun x d _ => by rw [g3]⟩

theorem scan_item {v : Nat} {pre : List Item} {d0 r0 : List (Event × Event)} {s : Scan} (h : ScanInv v pre d0 r0 s)
    (it : Item) (hno : ∀ e, it = .called e → e.var = v → e.type = .read) : ScanInv v (pre ++ [it]) d0 r0 (s.item it) := by
  have hother : ∀ e, it = .own e ∨ it = .called e → e.var ≠ v → ScanInv v (pre ++ [it]) d0 r0 (s.item it) := by
    intro e hit hv
    obtain ⟨k1, k2, k3, k4⟩ := item_other s it e hit hv
    have hkv : killsVar v it = none := by
      rcases hit with rfl | rfl <;> simp [killsVar, hv]
    have hne' : ∀ x : Event, x.var = v → ¬ (it = .own x ∨ it = .called x) := by
      rintro x hx (rfl | rfl) <;> rcases hit with hit | hit <;> cases hit <;> exact hv hx
    have hne : ∀ x : Event, x.var = v → it ≠ .own x := fun x hx h => hne' x hx (.inl h)
    refine ⟨?_, ?_, ?_, ?_, ?_, ?_⟩
    · rw [lastKill_append, hkv, k1]; simpa using h.none_
    · rw [lastKill_append, hkv, k1]; simpa using h.last
    · rw [List.findSome?_append, k1, h.first]; simp [hkv]
    · intro x
      rw [k2, h.gens, exists_snoc_at (Q := fun p => x.var = v ∧ x.type.generates = true ∧ lastKill v p = none)]
      constructor
      · exact .inl
      · rintro (h | ⟨h, h', _⟩)
        · exact h
        · exact absurd h (hne' x h')
    · intro x d hx
      rw [k3 x d hx, h.defs x d hx, exists_snoc_at (Q := fun p => x.type.generates = true ∧ lastKill v p = some d)]
      simp [hne' x hx]
    · intro x d hx
      rw [k4 x d hx, h.redefs x d hx, exists_snoc (Q := fun p => x.type.kills = true ∧ lastKill v p = some d)]
      simp [hne x hx]
  -- an event of `v`: of the block, or a read of a function called
  have hmain : ∀ e, e.var = v → it = .own e ∨ (it = .called e ∧ e.type.kills = false) → ScanInv v (pre ++ [it]) d0 r0 (s.item it) := by
      intro e hv hit
      subst hv
      have hitem : s.item it = s.own e := by
        rcases hit with rfl | ⟨rfl, hk⟩
        · rfl
        · simp [Scan.item, Scan.called, Scan.own, hk]
      have hkv : killsVar e.var it = if e.type.kills = true then some e else none := by
        rcases hit with rfl | ⟨rfl, hk⟩
        · simp [killsVar]
        · simp [killsVar, hk]
      have hat : it = .own e ∨ it = .called e := hit.imp_right And.left
      have hat' : ∀ x, it = .own x ∨ it = .called x → x = e := by
        rintro x (rfl | rfl) <;> rcases hit with hit | ⟨hit, _⟩ <;> cases hit <;> rfl
      have hown : e.type.kills = true → it = .own e := by
        rcases hit with h | ⟨_, h⟩
        · exact fun _ => h
        · simp [h]
      have hlk := lastKills_of h
      have hkn := kill_nil_iff h
      -- after the reaction to a generating event
      have hg : (s.generate e).kill = s.kill ∧ (s.generate e).redefines = s.redefines ∧
          (∀ x, x ∈ (s.generate e).gens e.var ↔ x ∈ s.gens e.var ∨
            (x = e ∧ e.type.generates = true ∧ lastKill e.var pre = none)) ∧
          (∀ x d, (x, d) ∈ (s.generate e).definitions ↔ (x, d) ∈ s.definitions ∨
            (x = e ∧ e.type.generates = true ∧ lastKill e.var pre = some d)) := by
        unfold Scan.generate
        by_cases hgen : e.type.generates = true
        · by_cases hk : s.kill e.var = []
          · have hl := hkn.1 hk
            simp only [hgen, hk, if_true]
            refine ⟨trivial, trivial, fun x => ?_, fun x d => ?_⟩
            · simp [setAt, hl]
            · simp [hl]
          · simp only [hgen, hk, if_true, if_false]
            refine ⟨trivial, trivial, fun x => ?_, fun x d => ?_⟩
            · have : lastKill e.var pre ≠ none := fun hn => hk (hkn.2 hn)
              simp [this]
            · rw [mem_addLinks, hlk]
              simp
        · simp [hgen]
      obtain ⟨g1, g2, g3, g4⟩ := hg
      have hkill : (s.item it).kill e.var = if e.type.kills = true then s.kill e.var ++ [[e]] else s.kill e.var := by
        simp only [hitem, Scan.own]
        split <;> simp [setAt, g1]
      have hgens : (s.item it).gens = (s.generate e).gens := by
        simp only [hitem, Scan.own]; split <;> rfl
      have hdefs : (s.item it).definitions = (s.generate e).definitions := by
        simp only [hitem, Scan.own]; split <;> rfl
      have hredefs : ∀ x d, (x, d) ∈ (s.item it).redefines ↔ (x, d) ∈ s.redefines ∨
          (x = e ∧ e.type.kills = true ∧ lastKill e.var pre = some d) := by
        intro x d
        simp only [hitem, Scan.own]
        split
        · rename_i hk
          simp only [mem_addLinks, g1, g2, hlk, hk, true_and]
        · rename_i hk
          simp [g2, hk]
      refine ⟨?_, ?_, ?_, ?_, ?_, ?_⟩
      · rw [lastKill_append, hkill, hkv]
        by_cases hk : e.type.kills = true
        · simp [hk]
        · simpa [hk] using h.none_
      · rw [lastKill_append, hkill, hkv]
        by_cases hk : e.type.kills = true
        · simp [hk]
        · simpa [hk] using h.last
      · rw [List.findSome?_append, hkill]
        have hf := h.first
        by_cases hk : e.type.kills = true
        · simp only [hk, if_true, List.head?_append, hf]
          cases hp : pre.findSome? (killsVar e.var) <;> simp [hkv, hk]
        · simp only [hk]
          cases hp : pre.findSome? (killsVar e.var) <;> simp [hkv, hk, hp, hf]
      · intro x
        rw [hgens, g3, h.gens, exists_snoc_at (Q := fun p => x.var = e.var ∧ x.type.generates = true ∧ lastKill e.var p = none)]
        constructor
        · rintro (h | ⟨rfl, h, h'⟩)
          · exact .inl h
          · exact .inr ⟨hat, rfl, h, h'⟩
        · rintro (h | ⟨h, _, h', h''⟩)
          · exact .inl h
          · cases hat' x h; exact .inr ⟨rfl, h', h''⟩
      · intro x d hx
        rw [hdefs, g4, h.defs x d hx, exists_snoc_at (Q := fun p => x.type.generates = true ∧ lastKill e.var p = some d), or_assoc]
        constructor
        · rintro (h | h | ⟨rfl, h, h'⟩)
          · exact .inl h
          · exact .inr (.inl h)
          · exact .inr (.inr ⟨hat, h, h'⟩)
        · rintro (h | h | ⟨h, h', h''⟩)
          · exact .inl h
          · exact .inr (.inl h)
          · cases hat' x h; exact .inr (.inr ⟨rfl, h', h''⟩)
      · intro x d hx
        rw [hredefs, h.redefs x d hx, exists_snoc (Q := fun p => x.type.kills = true ∧ lastKill e.var p = some d), or_assoc]
        constructor
        · rintro (h | h | ⟨rfl, h, h'⟩)
          · exact .inl h
          · exact .inr (.inl h)
          · exact .inr (.inr ⟨hown h, h, h'⟩)
        · rintro (h | h | ⟨h, h', h''⟩)
          · exact .inl h
          · exact .inr (.inl h)
          · cases hat' x (.inl h); exact .inr (.inr ⟨rfl, h', h''⟩)
  cases it with
  | own e =>
    by_cases hv : e.var = v
    · exact hmain e hv (.inl rfl)
    · exact hother e (.inl rfl) hv
  | called e =>
    by_cases hv : e.var = v
    · exact hmain e hv (.inr ⟨rfl, by rw [hno e rfl hv]; rfl⟩)
    · exact hother e (.inr rfl) hv

theorem scan_items {v : Nat} {d0 r0 : List (Event × Event)} : ∀ (rest pre : List Item) (s : Scan),
    ScanInv v pre d0 r0 s → NoCalled v rest → ScanInv v (pre ++ rest) d0 r0 (rest.foldl Scan.item s)
  | [], pre, s, h, _ => by simpa using h
  | it :: rest, pre, s, h, hno => by
    have h' := scan_item h it (fun e he => hno e (by simp [he]))
    have := scan_items rest (pre ++ [it]) (s.item it) h' (fun e he => hno e (by simp [he]))
    simpa using this

theorem scan_init (v : Nat) (d0 r0 : List (Event × Event)) :
    ScanInv v [] d0 r0 ⟨fun _ => [], fun _ => [], d0, r0⟩ := by
  refine ⟨by simp, by simp [lastKill], by simp, by simp [EventAt], by simp [EventAt], by simp⟩

theorem scanBlock_spec {P : Prog} {v b : Nat} (hno : NoCalled v (P.items b)) (d0 r0 : List (Event × Event)) :
    ScanInv v (P.items b) d0 r0 (scanBlock P d0 r0 b) := by
  have := scan_items (P.items b) [] _ (scan_init v d0 r0) hno
  simpa [scanBlock] using this

end Verif.Cfg
