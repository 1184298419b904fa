/-!
Python dictionaries as association lists in insertion order.
-/

namespace Verif

/-- A Python `dict`: keys in insertion order. -/
abbrev Dict (κ ν : Type) := List (κ × ν)

namespace Dict

variable {κ ν : Type} [DecidableEq κ]

/-- `d.get(k)`. -/
def get? : Dict κ ν → κ → Option ν
  | [], _ => none
  | (k', v) :: d, k => if k' = k then some v else get? d k

/-- `d[k] = v`: overwrites in place, or appends at the end. -/
def set : Dict κ ν → κ → ν → Dict κ ν
  | [], k, v => [(k, v)]
  | (k', v') :: d, k, v => if k' = k then (k', v) :: d else (k', v') :: set d k v

/-- `{**d, **e}`. -/
def merge (d e : Dict κ ν) : Dict κ ν := e.foldl (fun acc kv => set acc kv.1 kv.2) d

/-- `list(d.keys())`. -/
def keys (d : Dict κ ν) : List κ := d.map (·.1)

theorem get?_set_self (d : Dict κ ν) (k : κ) (v : ν) : get? (set d k v) k = some v := by
  induction d with
  | nil => simp [set, get?]
  | cons p d ih =>
    obtain ⟨k', v'⟩ := p
    by_cases h : k' = k <;> simp [set, get?, h, ih]

theorem get?_set_ne (d : Dict κ ν) {k k' : κ} (v : ν) (h : k' ≠ k) :
    get? (set d k v) k' = get? d k' := by
  induction d with
  | nil => simp [set, get?, h.symm]
  | cons p d ih =>
    obtain ⟨k'', v'⟩ := p
    by_cases h1 : k'' = k
    · subst h1; simp [set, get?, h.symm]
    · by_cases h2 : k'' = k'
      · subst h2; simp [set, get?, h]
      · simp [set, get?, h1, h2, ih]

theorem get?_set (d : Dict κ ν) (k k' : κ) (v : ν) :
    get? (set d k v) k' = if k' = k then some v else get? d k' := by
  by_cases h : k' = k
  · subst h; simp [get?_set_self]
  · simp [get?_set_ne d v h, h]

theorem get?_append (d e : Dict κ ν) (k : κ) :
    get? (d ++ e) k = (get? d k).or (get? e k) := by
  induction d with
  | nil => simp [get?]
  | cons p d ih =>
    obtain ⟨k', v'⟩ := p
    by_cases h : k' = k <;> simp [get?, h, ih]

/-- Right-biased lookup in the *last* binding of a key (what a sequence of writes leaves). -/
theorem get?_merge (d e : Dict κ ν) (k : κ) :
    get? (merge d e) k = (get? e.reverse k).or (get? d k) := by
  induction e generalizing d with
  | nil => simp [merge, get?]
  | cons p e ih =>
    obtain ⟨k', v'⟩ := p
    have : merge d ((k', v') :: e) = merge (set d k' v') e := rfl
    rw [this, ih, List.reverse_cons, get?_append, get?_set]
    by_cases h : k = k'
    · subst h; cases get? e.reverse k <;> simp [get?]
    · have h' : ¬ k' = k := fun x => h x.symm
      cases get? e.reverse k <;> simp [get?, h, h']

theorem mem_of_get? {d : Dict κ ν} {k : κ} {v : ν} (h : get? d k = some v) : (k, v) ∈ d := by
  induction d with
  | nil => simp [get?] at h
  | cons p d ih =>
    obtain ⟨k', v'⟩ := p
    by_cases h1 : k' = k
    · simp [get?, h1] at h; subst h h1; simp
    · simp [get?, h1] at h; simp [ih h]

theorem keys_set_of_mem (d : Dict κ ν) {k : κ} (v : ν) (h : k ∈ keys d) :
    keys (set d k v) = keys d := by
  induction d with
  | nil => simp [keys] at h
  | cons p d ih =>
    obtain ⟨k', v'⟩ := p
    by_cases h1 : k' = k
    · simp [set, keys, h1]
    · have hm : k ∈ keys d := by
        simp only [keys, List.map_cons, List.mem_cons] at h ⊢
        rcases h with h | h
        · exact absurd h.symm h1
        · exact h
      have := ih hm
      simp only [keys] at this
      simp [set, keys, h1, this]

theorem keys_set_of_not_mem (d : Dict κ ν) {k : κ} (v : ν) (h : k ∉ keys d) :
    keys (set d k v) = keys d ++ [k] := by
  induction d with
  | nil => simp [set, keys]
  | cons p d ih =>
    obtain ⟨k', v'⟩ := p
    simp only [keys, List.map_cons, List.mem_cons, not_or] at h
    have h1 : ¬ k' = k := fun x => h.1 x.symm
    have := ih h.2
    simp only [keys] at this
    simp [set, keys, h1, this]

theorem nodup_keys_set (d : Dict κ ν) (k : κ) (v : ν) (h : (keys d).Nodup) :
    (keys (set d k v)).Nodup := by
  by_cases hk : k ∈ keys d
  · rw [keys_set_of_mem d v hk]; exact h
  · rw [keys_set_of_not_mem d v hk, List.nodup_append]
    refine ⟨h, by simp, ?_⟩
    intro a ha b hb
    simp at hb; subst hb
    intro hab; subst hab; exact hk ha

theorem get?_eq_none_iff (d : Dict κ ν) (k : κ) : get? d k = none ↔ k ∉ keys d := by
  induction d with
  | nil => simp [get?, keys]
  | cons p d ih =>
    obtain ⟨k', v'⟩ := p
    by_cases h1 : k' = k
    · subst h1; simp [get?, keys]
    · simp only [get?, h1, if_false, ih, keys, List.map_cons, List.mem_cons, not_or]
      exact ⟨fun h => ⟨fun x => h1 x.symm, h⟩, fun h => h.2⟩

theorem get?_of_mem_nodup {d : Dict κ ν} {k : κ} {v : ν} (h : (k, v) ∈ d) (hn : (keys d).Nodup) :
    get? d k = some v := by
  induction d with
  | nil => simp at h
  | cons p d ih =>
    obtain ⟨k', v'⟩ := p
    simp only [keys, List.map_cons, List.nodup_cons] at hn
    rcases List.mem_cons.1 h with h1 | h1
    · simp at h1; simp [get?, h1.1, h1.2]
    · have : k' ≠ k := by
        intro hk; subst hk
        exact hn.1 (List.mem_map.2 ⟨(k', v), h1, rfl⟩)
      simp [get?, this, ih h1 hn.2]

theorem get?_reverse {d : Dict κ ν} (hn : (keys d).Nodup) (k : κ) : get? d.reverse k = get? d k := by
  have hr : (keys d.reverse).Nodup := by
    simp only [keys, List.map_reverse]; exact (List.reverse_perm _).nodup_iff.2 hn
  cases h : get? d k with
  | some v =>
    exact get?_of_mem_nodup (List.mem_reverse.2 (mem_of_get? h)) hr
  | none =>
    rw [get?_eq_none_iff] at h ⊢
    simpa [keys] using h

theorem nodup_keys_merge (d e : Dict κ ν) (h : (keys d).Nodup) : (keys (merge d e)).Nodup := by
  induction e generalizing d with
  | nil => exact h
  | cons p e ih => exact ih _ (nodup_keys_set d p.1 p.2 h)

theorem get?_merge_nodup (d e : Dict κ ν) (he : (keys e).Nodup) (k : κ) :
    get? (merge d e) k = (get? e k).or (get? d k) := by
  rw [get?_merge, get?_reverse he]

end Dict

end Verif
