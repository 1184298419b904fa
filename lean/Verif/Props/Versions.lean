import Verif.Model.Versions

/-!
C27, C28, C57: the check for a newer release.
-/

namespace Verif

variable {parse : Str → Option Ver} {pkg : Str} {ttl : Int}

/-- The file before position `i` of a history. -/
def fileBefore (parse : Str → Option Ver) (pkg : Str) (ttl : Int) (file : InfoFile) : List VCall → Nat → InfoFile
  | _, 0 => file
  | [], _ + 1 => file
  | c :: cs, i + 1 => fileBefore parse pkg ttl (getLatestVersion parse pkg ttl file c).1 cs i

theorem versionTrace_getElem (file : InfoFile) (cs : List VCall) (i : Nat) :
    (versionTrace parse pkg ttl file cs)[i]? =
      (cs[i]?).map fun c => (c, (getLatestVersion parse pkg ttl (fileBefore parse pkg ttl file cs i) c).2) := by
  induction cs generalizing file i with
  | nil => simp [versionTrace]
  | cons c cs ih =>
    cases i with
    | zero => simp [versionTrace, fileBefore]
    | succ i => simp [versionTrace, fileBefore, ih]

theorem fileBefore_succ (file : InfoFile) (cs : List VCall) (i : Nat) (c : VCall) (h : cs[i]? = some c) :
    fileBefore parse pkg ttl file cs (i + 1) = (getLatestVersion parse pkg ttl (fileBefore parse pkg ttl file cs i) c).1 := by
  induction cs generalizing file i with
  | nil => simp at h
  | cons c' cs ih =>
    cases i with
    | zero =>
      simp only [List.getElem?_cons_zero, Option.some.injEq] at h
      subst h
      cases cs <;> rfl
    | succ i =>
      simp only [List.getElem?_cons_succ] at h
      simpa [fileBefore] using ih (getLatestVersion parse pkg ttl file c').1 i h

theorem infoOf_set (d : Dict Str PackageInfo) (pkg : Str) (x : PackageInfo) : infoOf (Dict.set d pkg x) pkg = x := by
  simp [infoOf, Dict.get?_set_self]

/-! ### C27 -/

/-- The file tells of a query at `t` or later, or cannot be read. -/
def Knows (pkg : Str) (t : Int) (file : InfoFile) : Prop :=
  file = .corrupt ∨ ∃ d, file = .data d ∧ t ≤ (infoOf d pkg).lastStart

theorem saveStart_last (d : Dict Str PackageInfo) (pkg : Str) (t : Int) (h : t ≠ 0) :
    (infoOf (saveStart d pkg t) pkg).lastStart = t := by
  simp [saveStart, infoOf_set, h]

theorem saveVersion_last (d : Dict Str PackageInfo) (pkg v : Str) :
    (infoOf (saveVersion d pkg v) pkg).lastStart = (infoOf d pkg).lastStart := by
  simp only [saveVersion, infoOf_set]
  split <;> rfl

theorem knows_after_query {file : InfoFile} {c : VCall} {t : Int} (h : c.start ≠ 0)
    (hq : (getLatestVersion parse pkg ttl file c).2.query = some t) :
    t = c.start ∧ Knows pkg t (getLatestVersion parse pkg ttl file c).1 := by
  have key : ∀ d, c.start ≤ (infoOf d pkg).lastStart → Knows pkg c.start (.data d) := fun d hd => Or.inr ⟨d, rfl, hd⟩
  unfold getLatestVersion at hq ⊢
  cases hs : askFile pkg ttl file c.now with
  | some seen =>
    simp only [hs] at hq
    exfalso
    unfold askFile at hs
    split at hs
    · cases hs; cases hq
    · split at hs
      · cases hs; cases hq
      · cases hs
  | none =>
    simp only [hs] at hq
    simp only
    cases hd : file.load with
    | none => simp only [askIndex, hd] at hq; cases hq
    | some d =>
      have hst := saveStart_last d pkg c.start h
      have hk := key _ (by rw [hst]; exact Int.le_refl _)
      simp only [askIndex, hd] at hq ⊢
      by_cases h1 : c.cut = .noSave
      · simp [h1] at hq
      by_cases h2 : c.cut = .inSave
      · simp [h2] at hq
      by_cases h3 : c.cut = .beforeQuery
      · simp [h3] at hq
      rw [if_neg h1, if_neg h2, if_neg h3] at hq ⊢
      cases ha : c.answer with
      | none => simp only [ha, Option.some.injEq] at hq ⊢; subst hq; exact ⟨rfl, hk⟩
      | some rel =>
        simp only [ha] at hq ⊢
        cases hl : lastSorted (getVersions parse pkg rel) with
        | none => simp only [hl, Option.some.injEq] at hq ⊢; subst hq; exact ⟨rfl, hk⟩
        | some v =>
          simp only [hl] at hq ⊢
          by_cases h4 : c.cut = .noSaveVersion
          · rw [if_pos h4] at hq ⊢; cases hq; exact ⟨rfl, hk⟩
          by_cases h5 : c.cut = .inSaveVersion
          · rw [if_neg h4, if_pos h5] at hq ⊢; cases hq; exact ⟨rfl, Or.inl rfl⟩
          rw [if_neg h4, if_neg h5] at hq ⊢
          cases hq
          exact ⟨rfl, key _ (by rw [saveVersion_last, hst]; exact Int.le_refl _)⟩

theorem knows_step {file : InfoFile} {c : VCall} {t : Int} (h : c.start ≠ 0) (hmono : c.now ≤ c.start) (httl : 0 ≤ ttl)
    (hk : Knows pkg t file) : Knows pkg t (getLatestVersion parse pkg ttl file c).1 := by
  unfold getLatestVersion
  rcases hk with rfl | ⟨d, rfl, ht⟩
  · exact Or.inl rfl
  · have key : ∀ d, t ≤ (infoOf d pkg).lastStart → Knows pkg t (.data d) := fun d hd => Or.inr ⟨d, rfl, hd⟩
    have hkeep := key d ht
    simp only [askFile, InfoFile.load]
    split
    · exact hkeep
    · rename_i hs
      have hlate : t ≤ c.start := by
        split at hs
        · cases hs
        · omega
      have hst := saveStart_last d pkg c.start h
      have hk2 : Knows pkg t (.data (saveStart d pkg c.start)) := key _ (by rw [hst]; exact hlate)
      simp only [askIndex, InfoFile.load]
      split
      · exact hkeep
      split
      · exact Or.inl rfl
      split
      · exact hk2
      split
      · exact hk2
      split
      · exact hk2
      split
      · exact hk2
      split
      · exact Or.inl rfl
      · exact key _ (by rw [saveVersion_last, hst]; exact hlate)

theorem knows_later {file : InfoFile} {cs : List VCall} {i j : Nat} {t : Int} (httl : 0 ≤ ttl)
    (hc : ∀ c ∈ cs, c.start ≠ 0 ∧ c.now ≤ c.start) (hij : i ≤ j) (hj : j ≤ cs.length)
    (hk : Knows pkg t (fileBefore parse pkg ttl file cs i)) : Knows pkg t (fileBefore parse pkg ttl file cs j) := by
  induction j with
  | zero =>
    have : i = 0 := by omega
    subst this
    exact hk
  | succ j ih =>
    by_cases h : i = j + 1
    · subst h; exact hk
    · have hget : cs[j]? = some cs[j] := List.getElem?_eq_getElem (by omega)
      rw [fileBefore_succ _ _ _ _ hget]
      obtain ⟨h1, h2⟩ := hc _ (List.mem_of_getElem? hget)
      exact knows_step h1 h2 httl (ih (by omega) (by omega))

/-- **C27.** In every history of checks one after the other, with any answers, failures and interruptions and any
file at the start, two queries of the package index are at least `ttl` seconds apart. Missing: checks that
run at the same time, for which this is false (see the counterexample). (The clock does not go
backwards during a check and does not read 1970-01-01 00:00:00.) -/
theorem C27_one_query_partial (parse : Str → Option Ver) (pkg : Str) (ttl : Int) (file : InfoFile) (cs : List VCall)
    (httl : 0 ≤ ttl) (hc : ∀ c ∈ cs, c.start ≠ 0 ∧ c.now ≤ c.start) (i j : Nat) (hij : i < j)
    (c₁ c₂ : VCall) (s₁ s₂ : VSeen) (t₁ t₂ : Int)
    (h₁ : (versionTrace parse pkg ttl file cs)[i]? = some (c₁, s₁)) (q₁ : s₁.query = some t₁)
    (h₂ : (versionTrace parse pkg ttl file cs)[j]? = some (c₂, s₂)) (q₂ : s₂.query = some t₂) :
    t₁ + ttl ≤ t₂ := by
  rw [versionTrace_getElem, Option.map_eq_some_iff] at h₁ h₂
  obtain ⟨a, ha, h₁⟩ := h₁
  obtain ⟨b, hb, h₂⟩ := h₂
  cases h₁
  cases h₂
  have hlen := (List.getElem?_eq_some_iff.1 hb).1
  obtain ⟨ha1, ha2⟩ := hc _ (List.mem_of_getElem? ha)
  obtain ⟨hb1, hb2⟩ := hc _ (List.mem_of_getElem? hb)
  obtain ⟨-, hk⟩ := knows_after_query ha1 q₁
  rw [← fileBefore_succ _ _ _ _ ha] at hk
  have hk := knows_later httl hc (show i + 1 ≤ j by omega) (by omega) hk
  obtain ⟨rfl, -⟩ := knows_after_query hb1 q₂
  rcases hk with hk | ⟨d, hk, hle⟩
  · rw [hk] at q₂; cases q₂
  · rw [hk] at q₂
    unfold getLatestVersion at q₂
    split at q₂
    · rename_i seen hs
      exfalso
      simp only [askFile, InfoFile.load] at hs
      split at hs
      · cases hs; cases q₂
      · cases hs
    · rename_i hs
      simp only [askFile, InfoFile.load] at hs
      split at hs
      · cases hs
      · omega

/-- **C27 is false of the code** for checks at the same time: both read the file before either writes to it,
and both query. -/
theorem C27_counterexample :
    ∃ (file : InfoFile) (c₁ c₂ : VCall), c₁.now ≤ c₁.start ∧ c₂.now ≤ c₂.start ∧
      askFile "edulint".toList 600 file c₁.now = none ∧ askFile "edulint".toList 600 file c₂.now = none ∧
      ∃ t₁ t₂, (askIndex (fun _ => none) "edulint".toList file c₁).2.query = some t₁ ∧
        (askIndex (fun _ => none) "edulint".toList (askIndex (fun _ => none) "edulint".toList file c₁).1 c₂).2.query = some t₂ ∧
        t₂ < t₁ + 600 :=
  ⟨.absent, { now := 1000, start := 1000, answer := none }, { now := 1000, start := 1001, answer := none },
    by decide, by decide, by decide, by decide, 1000, 1001, by decide, by decide, by decide⟩

/-! ### C28 -/

/-- Order of releases. -/
def Ver.Older (a b : Ver) : Prop :=
  a.major < b.major ∨ (a.major = b.major ∧ (a.minor < b.minor ∨ (a.minor = b.minor ∧ a.micro < b.micro)))

theorem ver_lt {a b : Ver} : a.lt b = true ↔ a.Older b := by
  simp [Ver.lt, Ver.Older]

theorem older_trans {a b c : Ver} (h : a.Older b) (h' : b.Older c) : a.Older c := by
  unfold Ver.Older at *
  omega

/-- A version that can be installed from the given releases. -/
def Installable (parse : Str → Option Ver) (pkg : Str) (releases : List Release) (v : Ver) : Prop :=
  ∃ r ∈ releases, r.builds ≠ [] ∧ (∀ yanked ∈ r.builds, yanked = false) ∧ parse r.id = some v ∧
    (pkg = "pylint".toList → 3 ≤ v.major)

theorem mem_fullyReleased {releases : List Release} {v : Ver} :
    v ∈ fullyReleased parse releases ↔
      ∃ r ∈ releases, r.builds ≠ [] ∧ (∀ yanked ∈ r.builds, yanked = false) ∧ parse r.id = some v := by
  have hy : ∀ bs : List Bool, (¬ bs.contains true = true) ↔ ∀ y ∈ bs, y = false := by
    intro bs
    simp only [List.contains_iff_mem]
    constructor
    · intro h y hyy
      cases y with
      | false => rfl
      | true => exact absurd hyy h
    · intro h ht
      cases h true ht
  induction releases with
  | nil => simp [fullyReleased]
  | cons r rs ih =>
    simp only [fullyReleased]
    split
    · rename_i hp
      refine Iff.trans ih ?_
      constructor
      · rintro ⟨r', h1, h2⟩; exact ⟨r', by simp [h1], h2⟩
      · rintro ⟨r', h1, h2, h3, h4⟩
        rcases List.mem_cons.1 h1 with rfl | h1
        · rw [hp] at h4; cases h4
        · exact ⟨r', h1, h2, h3, h4⟩
    · rename_i w hp
      split
      · rename_i hc
        refine Iff.trans List.mem_cons (Iff.trans (or_congr Iff.rfl ih) ?_)
        constructor
        · rintro (rfl | ⟨r', h1, h2⟩)
          · exact ⟨r, by simp, hc.1, (hy _).1 hc.2, hp⟩
          · exact ⟨r', by simp [h1], h2⟩
        · rintro ⟨r', h1, h2, h3, h4⟩
          rcases List.mem_cons.1 h1 with rfl | h1
          · rw [hp] at h4; cases h4; exact Or.inl rfl
          · exact Or.inr ⟨r', h1, h2, h3, h4⟩
      · rename_i hc
        refine Iff.trans ih ?_
        constructor
        · rintro ⟨r', h1, h2⟩; exact ⟨r', by simp [h1], h2⟩
        · rintro ⟨r', h1, h2, h3, h4⟩
          rcases List.mem_cons.1 h1 with rfl | h1
          · exact absurd ⟨h2, (hy _).2 h3⟩ hc
          · exact ⟨r', h1, h2, h3, h4⟩

theorem mem_getVersions {releases : List Release} {v : Ver} :
    v ∈ getVersions parse pkg releases ↔ Installable parse pkg releases v := by
  unfold getVersions Installable
  simp only
  split
  · rename_i hp
    rw [List.mem_filter, mem_fullyReleased]
    simp only [hp, decide_eq_true_eq, forall_const]
    constructor
    · rintro ⟨⟨r, h1, h2, h3, h4⟩, h5⟩; exact ⟨r, h1, h2, h3, h4, h5⟩
    · rintro ⟨r, h1, h2, h3, h4, h5⟩; exact ⟨⟨r, h1, h2, h3, h4⟩, h5⟩
  · rename_i hp
    rw [mem_fullyReleased]
    constructor
    · rintro ⟨r, h1, h2, h3, h4⟩; exact ⟨r, h1, h2, h3, h4, fun h => absurd h hp⟩
    · rintro ⟨r, h1, h2, h3, h4, -⟩; exact ⟨r, h1, h2, h3, h4⟩

theorem lastSorted_spec {vs : List Ver} {v : Ver} (h : lastSorted vs = some v) :
    v ∈ vs ∧ ∀ w ∈ vs, ¬ v.Older w := by
  induction vs generalizing v with
  | nil => cases h
  | cons x xs ih =>
    simp only [lastSorted] at h
    split at h
    · rename_i hx
      cases h
      refine ⟨by simp, ?_⟩
      intro w hw
      cases xs with
      | nil =>
        simp only [List.mem_singleton] at hw
        subst hw
        unfold Ver.Older; omega
      | cons y ys =>
        simp only [lastSorted] at hx
        split at hx
        · cases hx
        · split at hx <;> cases hx
    · rename_i y hy
      obtain ⟨h1, h2⟩ := ih hy
      split at h
      · rename_i hlt
        cases h
        rw [ver_lt] at hlt
        refine ⟨by simp, ?_⟩
        intro w hw hw'
        rcases List.mem_cons.1 hw with rfl | hw
        · unfold Ver.Older at hw'; omega
        · exact h2 w hw (older_trans hlt hw')
      · rename_i hlt
        cases h
        rw [ver_lt] at hlt
        refine ⟨by simp [h1], ?_⟩
        intro w hw
        rcases List.mem_cons.1 hw with rfl | hw
        · exact hlt
        · exact h2 w hw

/-- Position `j` of a history is a query whose answer has `v` as its newest installable version. -/
def ReportedAt (parse : Str → Option Ver) (pkg : Str) (tr : List (VCall × VSeen)) (j : Nat) (v : Ver) : Prop :=
  ∃ c s releases, tr[j]? = some (c, s) ∧ s.query.isSome ∧ c.answer = some releases ∧
    Installable parse pkg releases v ∧ ∀ w, Installable parse pkg releases w → ¬ v.Older w

/-- What the file says about the newest version was reported. -/
def FileFrom (P : Str → Prop) (pkg : Str) (file : InfoFile) : Prop :=
  ∀ d, file.load = some d → ∀ v, (infoOf d pkg).version = some v → P v

theorem saveStart_version (d : Dict Str PackageInfo) (pkg : Str) (t : Int) :
    (infoOf (saveStart d pkg t) pkg).version = (infoOf d pkg).version := by
  simp only [saveStart, infoOf_set]
  split <;> rfl

theorem saveVersion_version (d : Dict Str PackageInfo) (pkg v w : Str)
    (h : (infoOf (saveVersion d pkg v) pkg).version = some w) : w = v ∨ (infoOf d pkg).version = some w := by
  simp only [saveVersion, infoOf_set] at h
  split at h
  · cases h; exact Or.inl rfl
  · exact Or.inr h

/-- One call: what it returns and what is in the file afterwards was in the file or is reported now. -/
theorem fileFrom_step {P : Str → Prop} {file : InfoFile} {c : VCall} (h : FileFrom P pkg file)
    (hnew : ∀ releases v, (getLatestVersion parse pkg ttl file c).2.query.isSome → c.answer = some releases →
      lastSorted (getVersions parse pkg releases) = some v → P v.text) :
    FileFrom P pkg (getLatestVersion parse pkg ttl file c).1 ∧
      ∀ v, (getLatestVersion parse pkg ttl file c).2.result = .returned (some v) → P v := by
  have hd : ∀ d, (∀ v, (infoOf d pkg).version = some v → P v) → FileFrom P pkg (.data d) := by
    intro d hp d' hd'
    cases hd'
    exact hp
  have hcor : FileFrom P pkg .corrupt := fun d hd => by cases hd
  unfold getLatestVersion at hnew ⊢
  split
  · rename_i seen hs
    refine ⟨h, ?_⟩
    intro v hv
    unfold askFile at hs
    split at hs
    · cases hs; cases hv
    · rename_i d hl
      split at hs
      · cases hs
        simp only [VResult.returned.injEq] at hv
        exact h d hl v hv
      · cases hs
  · rename_i hs
    simp only [hs] at hnew
    unfold askIndex at hnew ⊢
    split
    · exact ⟨h, fun v hv => by cases hv⟩
    rename_i d hl
    have h0 := h d hl
    have h1 : ∀ v, (infoOf (saveStart d pkg c.start) pkg).version = some v → P v := by
      rw [saveStart_version]; exact h0
    have hcut : ∀ v, c.cutOff = .returned (some v) → P v := by
      intro v hv
      unfold VCall.cutOff at hv
      split at hv <;> cases hv
    simp only [hl] at hnew
    split
    · exact ⟨hd d h0, hcut⟩
    rename_i hc1
    split
    · exact ⟨hcor, hcut⟩
    rename_i hc2
    split
    · exact ⟨hd _ h1, hcut⟩
    rename_i hc3
    simp only [hc1, hc2, hc3, if_false] at hnew
    split
    · exact ⟨hd _ h1, fun v hv => by cases hv⟩
    rename_i releases hrel
    split
    · exact ⟨hd _ h1, fun v hv => by cases hv⟩
    rename_i v hv
    have hP : P v.text := by
      refine hnew releases v ?_ hrel hv
      simp only [hrel, hv]
      split
      · rfl
      · split <;> rfl
    split
    · exact ⟨hd _ h1, hcut⟩
    split
    · exact ⟨hcor, hcut⟩
    · refine ⟨hd _ ?_, ?_⟩
      · intro w hw
        rcases saveVersion_version _ _ _ _ hw with rfl | hw
        · exact hP
        · exact h1 w hw
      · intro w hw
        cases hw
        exact hP

/-- **C28**, where the latest version comes from: whatever a check returns as the latest version was the newest
installable version in an answer of the package index, in this check or an earlier one. At the beginning the file says nothing about the package; it can say something
about others. -/
theorem C28_latest_was_reported (parse : Str → Option Ver) (pkg : Str) (ttl : Int) (cs : List VCall) (i : Nat)
    (file : InfoFile) (hfile : ∀ d, file = .data d → Dict.get? d pkg = none)
    (c : VCall) (s : VSeen) (latest : Str) (hi : (versionTrace parse pkg ttl file cs)[i]? = some (c, s))
    (hs : s.result = .returned (some latest)) :
    ∃ j v, j ≤ i ∧ ReportedAt parse pkg (versionTrace parse pkg ttl file cs) j v ∧ v.text = latest := by
  let P (k : Nat) (t : Str) : Prop :=
    ∃ j v, j < k ∧ ReportedAt parse pkg (versionTrace parse pkg ttl file cs) j v ∧ v.text = t
  have step : ∀ k c, cs[k]? = some c → FileFrom (P k) pkg (fileBefore parse pkg ttl file cs k) →
      FileFrom (P (k + 1)) pkg (fileBefore parse pkg ttl file cs (k + 1)) ∧
      ∀ v, (getLatestVersion parse pkg ttl (fileBefore parse pkg ttl file cs k) c).2.result = .returned (some v) → P (k + 1) v := by
    intro k c hc hf
    rw [fileBefore_succ _ _ _ _ hc]
    have hf' : FileFrom (P (k + 1)) pkg (fileBefore parse pkg ttl file cs k) := by
      intro d hd v hv
      obtain ⟨j, w, h1, h2, h3⟩ := hf d hd v hv
      exact ⟨j, w, by omega, h2, h3⟩
    refine fileFrom_step hf' ?_
    intro releases v hq ha hl
    obtain ⟨h1, h2⟩ := lastSorted_spec hl
    refine ⟨k, v, by omega, ⟨c, _, releases, ?_, hq, ha, mem_getVersions.1 h1, fun w hw => h2 w (mem_getVersions.2 hw)⟩, rfl⟩
    rw [versionTrace_getElem, hc]
    rfl
  have hall : ∀ k, k ≤ cs.length → FileFrom (P k) pkg (fileBefore parse pkg ttl file cs k) := by
    intro k
    induction k with
    | zero =>
      intro _ d hd v hv
      have : fileBefore parse pkg ttl file cs 0 = file := by cases cs <;> rfl
      rw [this] at hd
      cases file with
      | absent => cases hd; cases hv
      | corrupt => cases hd
      | data e =>
        cases hd
        simp [infoOf, hfile d rfl] at hv
    | succ k ih =>
      intro hk
      have hget : cs[k]? = some cs[k] := List.getElem?_eq_getElem (by omega)
      exact (step k _ hget (ih (by omega))).1
  rw [versionTrace_getElem, Option.map_eq_some_iff] at hi
  obtain ⟨c', hc, he⟩ := hi
  cases he
  have hlen := (List.getElem?_eq_some_iff.1 hc).1
  obtain ⟨j, v, h1, h2, h3⟩ := (step i c hc (hall i (by omega))).2 latest hs
  exact ⟨j, v, by omega, h2, h3⟩

/-- **C28.** An announcement is justified if a latest version is known and the running version is not newer than it
(and different texts are different versions): then the index has reported a newer version. Missing: the cases in
which nothing is known about the latest version, or the running one is newer; in both an update is announced (see the
counterexamples). -/
theorem C28_announced_partial (parse : Str → Option Ver) (pkg : Str) (ttl : Int) (cs : List VCall) (i : Nat)
    (file : InfoFile) (hfile : ∀ d, file = .data d → Dict.get? d pkg = none)
    (c : VCall) (s : VSeen) (latest : Str) (running : Ver)
    (hi : (versionTrace parse pkg ttl file cs)[i]? = some (c, s)) (hs : s.result = .returned (some latest))
    (hknown : ∀ v, v.text = latest → ¬ v.Older running ∧ (v.text ≠ running.text → v.Older running ∨ running.Older v))
    (h : isUpdateWaiting (some running.text) s.result = true) :
    ∃ j v, j ≤ i ∧ ReportedAt parse pkg (versionTrace parse pkg ttl file cs) j v ∧ v.text = latest ∧ running.Older v := by
  obtain ⟨j, v, h1, h2, h3⟩ := C28_latest_was_reported parse pkg ttl cs i file hfile c s latest hi hs
  refine ⟨j, v, h1, h2, h3, ?_⟩
  rw [hs] at h
  simp only [isUpdateWaiting, decide_eq_true_eq, ne_eq, Option.some.injEq] at h
  rcases (hknown v h3).2 (fun he => h (by rw [← he, h3])) with h' | h'
  · exact absurd h' (hknown v h3).1
  · exact h'

/-- **C28**, the converse: no announcement if the running version is the latest one, or if the running version is
not known. -/
theorem C28_not_announced (running : Str) (result : VResult) :
    isUpdateWaiting none result = false ∧ isUpdateWaiting (some running) (.returned (some running)) = false := by
  constructor
  · cases result <;> rfl
  · simp [isUpdateWaiting]

/-- Reading versions of three digits. -/
def exParse : Str → Option Ver
  | [a, '.', b, '.', c] => some ⟨a.toNat - 48, b.toNat - 48, c.toNat - 48, [a, '.', b, '.', c]⟩
  | _ => none

/-- **C28 is false of the code**: with no connection at the first check, an update is announced. -/
theorem C28_counterexample_offline :
    ∃ c s, (versionTrace exParse "edulint".toList 600 .absent [{ now := 1000, start := 1000, answer := none }])[0]? = some (c, s) ∧
      isUpdateWaiting (some "4.0.0".toList) s.result = true ∧
      ∀ j v, ¬ ReportedAt exParse "edulint".toList
        (versionTrace exParse "edulint".toList 600 .absent [{ now := 1000, start := 1000, answer := none }]) j v := by
  refine ⟨_, _, rfl, by decide, ?_⟩
  rintro j v ⟨c, s, rel, h1, -, h3, -⟩
  match j with
  | 0 => cases h1; cases h3
  | n + 1 => cases h1

/-- **C28 is false of the code**: a running version newer than all releases is told to update. -/
theorem C28_counterexample_newer :
    ∃ c s v, (versionTrace exParse "edulint".toList 600 .absent
        [{ now := 1000, start := 1000, answer := some [⟨"4.0.0".toList, [false]⟩] }])[0]? = some (c, s) ∧
      isUpdateWaiting (some "4.1.0".toList) s.result = true ∧ s.result = .returned (some "4.0.0".toList) ∧
      exParse "4.1.0".toList = some v ∧ (Ver.Older ⟨4, 0, 0, "4.0.0".toList⟩ v) := by
  refine ⟨_, _, ⟨4, 1, 0, "4.1.0".toList⟩, rfl, by decide, by decide, by decide, ?_⟩
  simp [Ver.Older]

/-- A history: the first check queries, skips the yanked, the empty and the unreadable release; the second one, soon after,
does not query; the third one fails to reach the index; the fourth is soon after and uses the saved version. -/
example : (versionTrace exParse "edulint".toList 600 .absent
    [{ now := 1000, start := 1001, answer := some [⟨"3.9.2".toList, [false]⟩, ⟨"4.0.0".toList, [false, false]⟩,
        ⟨"4.2.0".toList, [false, true]⟩, ⟨"5.0.0".toList, []⟩, ⟨"dev".toList, [false]⟩] },
     { now := 1600, start := 1600, answer := none },
     { now := 1601, start := 1601, answer := none },
     { now := 1700, start := 1700, answer := none }]).map (·.2) =
    [⟨.returned (some "4.0.0".toList), some 1001⟩, ⟨.returned (some "4.0.0".toList), none⟩, ⟨.returned none, some 1601⟩,
     ⟨.returned (some "4.0.0".toList), none⟩] := by decide +kernel

/-! ### C57 -/

theorem corrupt_forever (cs : List VCall) (i : Nat) (c : VCall) (s : VSeen)
    (h : (versionTrace parse pkg ttl .corrupt cs)[i]? = some (c, s)) : s = ⟨.raised, none⟩ := by
  induction cs generalizing i with
  | nil => simp [versionTrace] at h
  | cons a cs ih =>
    cases i with
    | zero => simp [versionTrace] at h; rw [← h.2]; rfl
    | succ i => exact ih i h

/-- **C57.** After any history without an interruption in the middle of writing the file, a check at a time when the last
query is long enough ago queries the index again, and returns its newest installable version. Missing:
interruptions while writing, for which this is false (see the counterexample). -/
theorem C57_recovers_partial (parse : Str → Option Ver) (pkg : Str) (ttl : Int) (cs : List VCall) (i : Nat)
    (hcut : ∀ c ∈ cs, c.cut ≠ .inSave ∧ c.cut ≠ .inSaveVersion)
    (c : VCall) (s : VSeen) (hi : (versionTrace parse pkg ttl .absent cs)[i]? = some (c, s))
    (hlate : ttl ≤ c.now ∧ ∀ c' ∈ cs.take i, c'.start + ttl ≤ c.now) (hdone : c.cut = .done) :
    s.query = some c.start ∧
      ∀ releases, c.answer = some releases → (∃ v, Installable parse pkg releases v) →
        ∃ v, s.result = .returned (some v.text) ∧ Installable parse pkg releases v ∧
          ∀ w, Installable parse pkg releases w → ¬ v.Older w := by
  have inv : ∀ k, k ≤ i → k ≤ cs.length → ∃ d, (fileBefore parse pkg ttl .absent cs k).load = some d ∧
      (infoOf d pkg).lastStart + ttl ≤ c.now := by
    intro k
    induction k with
    | zero =>
      intro _ _
      have : fileBefore parse pkg ttl .absent cs 0 = .absent := by cases cs <;> rfl
      rw [this]
      exact ⟨[], rfl, by simp [infoOf, Dict.get?]; omega⟩
    | succ k ih =>
      intro hki hk
      obtain ⟨d, hd, hl⟩ := ih (by omega) (by omega)
      have hget : cs[k]? = some cs[k] := List.getElem?_eq_getElem (by omega)
      rw [fileBefore_succ _ _ _ _ hget]
      have hmem : cs[k] ∈ cs := List.mem_of_getElem? hget
      obtain ⟨hc1, hc2⟩ := hcut _ hmem
      have htake : cs[k] ∈ cs.take i := by
        refine List.mem_of_getElem? (i := k) ?_
        rw [List.getElem?_take_of_lt (by omega)]; exact hget
      have hst : (infoOf (saveStart d pkg cs[k].start) pkg).lastStart + ttl ≤ c.now := by
        simp only [saveStart, infoOf_set]
        split
        · exact hlate.2 _ htake
        · exact hl
      have hkeep : ∃ d', (InfoFile.data d).load = some d' ∧ (infoOf d' pkg).lastStart + ttl ≤ c.now := ⟨d, rfl, hl⟩
      have hsave : ∃ d', (InfoFile.data (saveStart d pkg cs[k].start)).load = some d' ∧
          (infoOf d' pkg).lastStart + ttl ≤ c.now := ⟨_, rfl, hst⟩
      unfold getLatestVersion
      split
      · exact ⟨d, hd, hl⟩
      · simp only [askIndex, hd, hc1, hc2, if_false]
        split
        · exact hkeep
        split
        · exact hsave
        split
        · exact hsave
        split
        · exact hsave
        split
        · exact hsave
        · exact ⟨_, rfl, by rw [saveVersion_last]; exact hst⟩
  rw [versionTrace_getElem, Option.map_eq_some_iff] at hi
  obtain ⟨c', hc, he⟩ := hi
  cases he
  have hlen := (List.getElem?_eq_some_iff.1 hc).1
  obtain ⟨d, hd, hl⟩ := inv i (Nat.le_refl _) (by omega)
  have hask : askFile pkg ttl (fileBefore parse pkg ttl .absent cs i) c.now = none := by
    simp only [askFile, hd]
    rw [if_neg (by omega)]
  simp only [getLatestVersion, hask, askIndex, hd, hdone]
  rw [if_neg (by decide), if_neg (by decide), if_neg (by decide)]
  constructor
  · split
    · rfl
    · split <;> rfl
  · rintro releases hrel ⟨v, hv⟩
    simp only [hrel]
    split
    · rename_i hnone
      exfalso
      have hm := mem_getVersions.2 hv
      cases hvs : getVersions parse pkg releases with
      | nil => rw [hvs] at hm; cases hm
      | cons x xs =>
        rw [hvs] at hnone
        simp only [lastSorted] at hnone
        split at hnone
        · cases hnone
        · split at hnone <;> cases hnone
    · rename_i v' hv'
      obtain ⟨h1, h2⟩ := lastSorted_spec hv'
      exact ⟨v', rfl, mem_getVersions.1 h1, fun w hw => h2 w (mem_getVersions.2 hw)⟩

/-- **C57 is false of the code** if a process is cut off while it writes the file: no later check ever queries. -/
theorem C57_counterexample :
    ∃ first : VCall, first.dies = true ∧ ∀ (cs : List VCall) (i : Nat) (c : VCall) (s : VSeen),
      (versionTrace exParse "edulint".toList 600 .absent (first :: cs))[i + 1]? = some (c, s) → s = ⟨.raised, none⟩ := by
  refine ⟨{ now := 1000, start := 1000, answer := none, cut := .inSave, dies := true }, rfl, ?_⟩
  intro cs i c s h
  exact corrupt_forever cs i c s h

end Verif
