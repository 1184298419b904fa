import Verif.Model.HttpCache

/-!
C25, C26, C55, C56: downloaded configuration files.
-/

namespace Verif

/-- The requests of a history with what was observed of each. -/
def trace (d : CacheDisk) : List Get → List (Get × Got)
  | [] => []
  | g :: gs => (g, (httpGet d g).2) :: trace (httpGet d g).1 gs

theorem trace_eq (d : CacheDisk) (gs : List Get) : trace d gs = gs.zip (history d gs).2 := by
  induction gs generalizing d with
  | nil => rfl
  | cons g gs ih => simp [trace, history, ih]

/-- Position `j` of a trace is a download of `body` from `url`. -/
def DownloadAt (t : List (Get × Got)) (j : Nat) (url body : Str) : Prop :=
  ∃ g r, t[j]? = some (g, r) ∧ r.asked = true ∧ g.url = url ∧ g.response = .ok body

/-- What is on the disk after the requests `past`: contents come from downloads, as told by `R`; a timestamp
was written by a completed download, not later than the one that the content comes from. -/
structure Inv (R : Str → Str → Prop) (past : List (Get × Got)) (d : CacheDisk) : Prop where
  content : ∀ url c, d.content url = some c → ∃ j b, DownloadAt past j url b ∧ R c b
  stamp : ∀ url t, d.stamp url = some (.stamp t) → ∃ j g r b, past[j]? = some (g, r) ∧ r.asked = true ∧ g.url = url ∧
    g.response = .ok b ∧ g.cut = .done ∧ g.writeTime = t ∧
    ∃ c k b', j ≤ k ∧ d.content url = some c ∧ DownloadAt past k url b' ∧ R c b'

theorem DownloadAt.append {past j url b} (h : DownloadAt past j url b) (q : List (Get × Got)) :
    DownloadAt (past ++ q) j url b := by
  obtain ⟨g, r, h1, h2⟩ := h
  refine ⟨g, r, ?_, h2⟩
  rw [List.getElem?_append_left]
  · exact h1
  · exact (List.getElem?_eq_some_iff.1 h1).1

theorem Inv.append {R past d} (h : Inv R past d) (q : List (Get × Got)) : Inv R (past ++ q) d := by
  refine ⟨?_, ?_⟩
  · intro url c hc
    obtain ⟨j, b, h1, h2⟩ := h.content url c hc
    exact ⟨j, b, h1.append q, h2⟩
  · intro url t ht
    obtain ⟨j, g, r, b, h1, h2, h3, h4, h5, h6, c, k, b', h7, h8, h9, h10⟩ := h.stamp url t ht
    refine ⟨j, g, r, b, ?_, h2, h3, h4, h5, h6, c, k, b', h7, h8, h9.append q, h10⟩
    rw [List.getElem?_append_left (List.getElem?_eq_some_iff.1 h1).1]
    exact h1

theorem Inv.step {R past d} (h : Inv R past d) (g : Get) (hrefl : ∀ b, R b b)
    (hcut : ∀ n, g.cut = .inContent n → ∀ b, R (b.take n) b) :
    Inv R (past ++ [(g, (httpGet d g).2)]) (httpGet d g).1 := by
  unfold httpGet
  split
  · exact h.append _
  rename_i hmiss
  split
  · rename_i body hbody
    have hnew : ∀ r : Got, r.asked = true → DownloadAt (past ++ [(g, r)]) past.length g.url body := by
      intro r hr
      exact ⟨g, r, by simp, hr, rfl, hbody⟩
    have hR : ∀ n, g.cut = .inContent n → R (body.take n) body := fun n hn => hcut n hn body
    generalize hr : (⟨if g.dies then none else some body, true⟩ : Got) = r
    have hasked : r.asked = true := by rw [← hr]
    have key : ∀ c m, R c body → (m = d.stamp g.url ∨ m = some .unreadable ∨ (m = some (.stamp g.writeTime) ∧ g.cut = .done)) →
        Inv R (past ++ [(g, r)]) ⟨fun u => if u = g.url then some c else d.content u, fun u => if u = g.url then m else d.stamp u⟩ := by
      intro c m hc hm
      refine ⟨?_, ?_⟩
      · intro url c' hc'
        simp only at hc'
        split at hc'
        · rename_i hu
          cases hc'
          rw [hu]
          exact ⟨_, _, hnew r hasked, hc⟩
        · exact (h.append _).content url c' hc'
      · intro url t ht
        simp only at ht
        by_cases hu : url = g.url
        · subst hu
          simp only [if_true] at ht
          rcases hm with hm | hm | ⟨hm, hdone⟩
          · rw [hm] at ht
            obtain ⟨j, g', r', b, h1, h2, h3, h4, h5, h6, -⟩ := (h.append [(g, r)]).stamp g.url t ht
            refine ⟨j, g', r', b, h1, h2, h3, h4, h5, h6, c, past.length, body, ?_, by simp, hnew r hasked, hc⟩
            have := (List.getElem?_eq_some_iff.1 h1).1
            simp only [List.length_append, List.length_singleton] at this
            omega
          · rw [hm] at ht; cases ht
          · rw [hm] at ht
            cases ht
            exact ⟨past.length, g, r, body, by simp, hasked, rfl, hbody, hdone, rfl, c, past.length, body, Nat.le_refl _,
              by simp, hnew r hasked, hc⟩
        · simp only [if_neg hu] at ht
          obtain ⟨j, g', r', b, h1, h2, h3, h4, h5, h6, c', k, b', h7, h8, h9, h10⟩ := (h.append [(g, r)]).stamp url t ht
          exact ⟨j, g', r', b, h1, h2, h3, h4, h5, h6, c', k, b', h7, by simp [hu, h8], h9, h10⟩
    unfold CacheDisk.write
    cases hc : g.cut with
    | inContent n => exact key _ _ (hR n hc) (Or.inl rfl)
    | beforeStamp => exact key _ _ (hrefl _) (Or.inl rfl)
    | inStamp => exact key _ _ (hrefl _) (Or.inr (Or.inl rfl))
    | done => exact key _ _ (hrefl _) (Or.inr (Or.inr ⟨rfl, hc⟩))
  · exact h.append _

theorem Inv.empty (R) : Inv R [] CacheDisk.empty :=
  ⟨fun _ _ h => (by cases h), fun _ _ h => (by cases h)⟩

/-- Before every request of a history, the invariant holds for the part of the trace before it. -/
theorem Inv.before {R past d} (h : Inv R past d) (hrefl : ∀ b, R b b) (gs : List Get)
    (hcut : ∀ g ∈ gs, ∀ n, g.cut = .inContent n → ∀ b, R (b.take n) b) (i : Nat) (g : Get) (r : Got)
    (hi : (trace d gs)[i]? = some (g, r)) :
    ∃ d', Inv R (past ++ (trace d gs).take i) d' ∧ r = (httpGet d' g).2 := by
  induction gs generalizing past d i with
  | nil => simp [trace] at hi
  | cons g' gs ih =>
    cases i with
    | zero =>
      simp only [trace, List.getElem?_cons_zero, Option.some.injEq, Prod.mk.injEq] at hi
      obtain ⟨rfl, rfl⟩ := hi
      exact ⟨d, by simpa using h, rfl⟩
    | succ i =>
      simp only [trace, List.getElem?_cons_succ] at hi
      obtain ⟨d', h1, h2⟩ := ih (h.step g' hrefl (hcut g' (by simp))) (fun g hg => hcut g (by simp [hg])) i hi
      refine ⟨d', ?_, h2⟩
      simpa [trace] using h1

theorem cached_read {d : CacheDisk} {url : Str} {a t : Int} {b : Str} (h : d.cached url a t = some b) :
    d.content url = some b ∧ b ≠ [] ∧ ∃ s, d.stamp url = some (.stamp s) ∧ t < s + a := by
  unfold CacheDisk.cached at h
  split at h
  · rename_i c cs hr
    cases h
    unfold CacheDisk.read at hr
    split at hr
    · cases hr
    · cases hr
    · rename_i s hs
      split at hr
      · cases hr
      · exact ⟨hr, by simp, s, hs, by omega⟩
  · cases h

theorem DownloadAt.take {t : List (Get × Got)} {i j url b} (h : DownloadAt (t.take i) j url b) :
    j < i ∧ DownloadAt t j url b := by
  obtain ⟨g, r, h1, h2⟩ := h
  have hlt := (List.getElem?_eq_some_iff.1 h1).1
  rw [List.length_take] at hlt
  rw [List.getElem?_take_of_lt (by omega)] at h1
  exact ⟨by omega, g, r, h1, h2⟩

theorem served {R : Str → Str → Prop} (hrefl : ∀ b, R b b) (gs : List Get)
    (hcut : ∀ g ∈ gs, ∀ n, g.cut = .inContent n → ∀ b, R (b.take n) b) (i : Nat) (g : Get) (r : Got) (body : Str)
    (hi : (trace .empty gs)[i]? = some (g, r)) (hr : r.body = some body) :
    ∃ j b, j ≤ i ∧ DownloadAt (trace .empty gs) j g.url b ∧ R body b := by
  obtain ⟨d, hinv, rfl⟩ := (Inv.empty R).before hrefl gs hcut i g r hi
  rw [List.nil_append] at hinv
  have hc : ∀ a t, d.cached g.url a t = some body → ∃ j b, j ≤ i ∧ DownloadAt (trace .empty gs) j g.url b ∧ R body b := by
    intro a t h
    obtain ⟨h1, -, -⟩ := cached_read h
    obtain ⟨j, b, h2, h3⟩ := hinv.content _ _ h1
    obtain ⟨h4, h5⟩ := h2.take
    exact ⟨j, b, by omega, h5, h3⟩
  cases hca : d.cached g.url maxCacheTime g.now with
  | some b' =>
    simp only [httpGet, hca, Option.some.injEq] at hr
    subst hr
    exact hc _ _ hca
  | none =>
    cases hresp : g.response with
    | ok b =>
      simp only [httpGet, hca, hresp] at hr hi
      split at hr
      · cases hr
      · cases hr
        exact ⟨i, body, Nat.le_refl _, ⟨g, _, hi, rfl, rfl, hresp⟩, hrefl _⟩
    | status n =>
      simp only [httpGet, hca, hresp] at hr
      exact hc _ _ hr
    | failed =>
      simp only [httpGet, hca, hresp] at hr
      exact hc _ _ hr

/-- **C25.** In every history of requests in which no process is cut off while it writes a content file, all
returned contents are complete answers to a request for that address. Missing: processes that are cut off there,
for which this is false (see the counterexample); `C25_prefix` is what still holds then. -/
theorem C25_complete_partial (gs : List Get) (hcut : ∀ g ∈ gs, ∀ n, g.cut ≠ .inContent n)
    (i : Nat) (g : Get) (r : Got) (body : Str)
    (hi : (trace .empty gs)[i]? = some (g, r)) (hr : r.body = some body) :
    ∃ j, j ≤ i ∧ DownloadAt (trace .empty gs) j g.url body := by
  obtain ⟨j, b, h1, h2, rfl⟩ := served (R := Eq) (fun _ => rfl) gs (fun g hg n hn => absurd hn (hcut g hg n)) i g r body hi hr
  exact ⟨j, h1, h2⟩

/-- **C25**, in all histories: returned contents are beginnings of complete answers for that address. -/
theorem C25_prefix (gs : List Get) (i : Nat) (g : Get) (r : Got) (body : Str)
    (hi : (trace .empty gs)[i]? = some (g, r)) (hr : r.body = some body) :
    ∃ j rest, j ≤ i ∧ DownloadAt (trace .empty gs) j g.url (body ++ rest) := by
  obtain ⟨j, b, h1, h2, rest, rfl⟩ := served (R := fun c b => ∃ rest, c ++ rest = b) (fun b => ⟨[], by simp⟩) gs
    (fun g _ n _ b => ⟨b.drop n, List.take_append_drop n b⟩) i g r body hi hr
  exact ⟨j, rest, h1, h2⟩

/-- **C25 is false of the code**: a process that replaces an old content dies in the middle of writing the new
one; the next request finds the server unreachable and returns the part that was written. -/
theorem C25_counterexample :
    ∃ (gs : List Get) (i : Nat) (g : Get) (r : Got) (body : Str), (trace .empty gs)[i]? = some (g, r) ∧ r.body = some body ∧
      ∀ j, ¬ DownloadAt (trace .empty gs) j g.url body := by
  refine ⟨[{ url := ['u'], now := 0, writeTime := 0, retryTime := 0, response := .ok "abc".toList },
    { url := ['u'], now := 400, writeTime := 400, retryTime := 400, response := .ok "xyz".toList, cut := .inContent 2, dies := true },
    { url := ['u'], now := 500, writeTime := 500, retryTime := 500, response := .failed }], 2, _, _, "xy".toList, rfl, rfl, ?_⟩
  rintro j ⟨g, r, h1, -, -, h4⟩
  match j with
  | 0 => cases h1; cases h4
  | 1 => cases h1; cases h4
  | 2 => cases h1; cases h4
  | n + 3 => cases h1

/-! ### C26 -/

theorem httpGet_other {d : CacheDisk} {g : Get} {url : Str} (h : g.url ≠ url) :
    (httpGet d g).1.content url = d.content url ∧ (httpGet d g).1.stamp url = d.stamp url := by
  have h' : ¬ url = g.url := fun e => h e.symm
  unfold httpGet
  split
  · exact ⟨rfl, rfl⟩
  · split
    · unfold CacheDisk.write
      split <;> simp [h']
    · exact ⟨rfl, rfl⟩

theorem cached_of {d : CacheDisk} {url body : Str} {t a now : Int} (h1 : d.content url = some body)
    (h2 : d.stamp url = some (.stamp t)) (hb : body ≠ []) (ht : now < t + a) : d.cached url a now = some body := by
  unfold CacheDisk.cached CacheDisk.read
  rw [h2]
  simp only
  rw [if_neg (by omega), h1]
  cases body with
  | nil => exact absurd rfl hb
  | cons c cs => rfl

/-- The disk before position `i` of a history. -/
def diskBefore (d : CacheDisk) : List Get → Nat → CacheDisk
  | _, 0 => d
  | [], _ + 1 => d
  | g :: gs, i + 1 => diskBefore (httpGet d g).1 gs i

theorem trace_getElem (d : CacheDisk) (gs : List Get) (i : Nat) :
    (trace d gs)[i]? = (gs[i]?).map fun g => (g, (httpGet (diskBefore d gs i) g).2) := by
  induction gs generalizing d i with
  | nil => simp [trace]
  | cons g gs ih =>
    cases i with
    | zero => simp [trace, diskBefore]
    | succ i => simp [trace, diskBefore, ih]

theorem diskBefore_succ (d : CacheDisk) (gs : List Get) (i : Nat) (g : Get) (h : gs[i]? = some g) :
    diskBefore d gs (i + 1) = (httpGet (diskBefore d gs i) g).1 := by
  induction gs generalizing d i with
  | nil => simp at h
  | cons g' gs ih =>
    cases i with
    | zero =>
      simp only [List.getElem?_cons_zero, Option.some.injEq] at h
      subst h
      cases gs <;> rfl
    | succ i =>
      simp only [List.getElem?_cons_succ] at h
      simpa [diskBefore] using ih (httpGet d g').1 i h

/-- Position `i` of a trace is a download of `body` from `url` that is completely written to the disk, at time `t`. -/
def StoredAt (tr : List (Get × Got)) (i : Nat) (url body : Str) (t : Int) : Prop :=
  ∃ g r, tr[i]? = some (g, r) ∧ r.asked = true ∧ g.url = url ∧ g.response = .ok body ∧ g.cut = .done ∧ g.writeTime = t

theorem kept (d : CacheDisk) (gs : List Get) (i : Nat) (url body : Str) (t : Int)
    (hs : StoredAt (trace d gs) i url body t) (hb : body ≠ []) (k : Nat)
    (hk : ∀ j g r, i < j → j < k → (trace d gs)[j]? = some (g, r) → g.url = url →
      g.now < t + maxCacheTime ∨ ∀ b, g.response ≠ .ok b) (hik : i < k) (hlen : k ≤ gs.length) :
    (diskBefore d gs k).content url = some body ∧ (diskBefore d gs k).stamp url = some (.stamp t) := by
  obtain ⟨g0, r0, h1, h2, h3, h4, h5, h6⟩ := hs
  induction k with
  | zero => omega
  | succ k ih =>
    have hex : ∃ g, gs[k]? = some g := ⟨gs[k], List.getElem?_eq_getElem (by omega)⟩
    obtain ⟨g, hg⟩ := hex
    rw [diskBefore_succ d gs k g hg]
    by_cases hki : i = k
    · subst hki
      rw [trace_getElem, hg, Option.map_some, Option.some.injEq, Prod.mk.injEq] at h1
      obtain ⟨rfl, rfl⟩ := h1
      cases hc : (diskBefore d gs i).cached g.url maxCacheTime g.now with
      | some b => simp [httpGet, hc] at h2
      | none =>
        simp only [httpGet, hc, h4]
        simp [h5, CacheDisk.write, h3, h6]
    · obtain ⟨ih1, ih2⟩ := ih (fun j g r hj hjk => hk j g r hj (by omega)) (by omega) (by omega)
      by_cases hu : g.url = url
      · have htr : (trace d gs)[k]? = some (g, (httpGet (diskBefore d gs k) g).2) := by
          rw [trace_getElem, hg]; rfl
        cases hc : (diskBefore d gs k).cached g.url maxCacheTime g.now with
        | some b => simp only [httpGet, hc]; exact ⟨ih1, ih2⟩
        | none =>
          rcases hk k g _ (by omega) (by omega) htr hu with hnow | hno
          · rw [hu, cached_of ih1 ih2 hb hnow] at hc
            cases hc
          · cases hresp : g.response with
            | ok b => exact absurd hresp (hno b)
            | status n => simp only [httpGet, hc, hresp]; exact ⟨ih1, ih2⟩
            | failed => simp only [httpGet, hc, hresp]; exact ⟨ih1, ih2⟩
      · obtain ⟨k1, k2⟩ := httpGet_other (d := diskBefore d gs k) hu
        rw [k1, k2]
        exact ⟨ih1, ih2⟩

/-- **C26.** After a download is stored (with whatever on the disk before), all further requests for the address at
times less than five minutes later return the same content without asking the server, no matter how many
requests for any addresses there are in between, what the server would answer, and where they are cut off.
Missing: empty contents, for which this is false (see the counterexample). -/
theorem C26_window_partial (d : CacheDisk) (gs : List Get) (i k : Nat) (url body : Str) (t : Int) (hik : i < k)
    (hs : StoredAt (trace d gs) i url body t) (hb : body ≠ [])
    (hnow : ∀ j g r, i < j → j ≤ k → (trace d gs)[j]? = some (g, r) → g.url = url → g.now < t + 300)
    (g : Get) (r : Got) (hg : (trace d gs)[k]? = some (g, r)) (hu : g.url = url) : r = ⟨some body, false⟩ := by
  have hlt : k < gs.length := by
    rw [trace_getElem] at hg
    cases hgk : gs[k]? with
    | none => rw [hgk] at hg; cases hg
    | some x => exact (List.getElem?_eq_some_iff.1 hgk).1
  obtain ⟨h1, h2⟩ := kept d gs i url body t hs hb k
    (fun j g r hij hjk htr hu => Or.inl (hnow j g r hij (by omega) htr hu)) hik (by omega)
  have hn : g.now < t + maxCacheTime := hnow k g r hik (Nat.le_refl _) hg hu
  rw [trace_getElem] at hg
  cases hgk : gs[k]? with
  | none => rw [hgk] at hg; cases hg
  | some x =>
    rw [hgk] at hg
    simp only [Option.map_some, Option.some.injEq, Prod.mk.injEq] at hg
    obtain ⟨rfl, rfl⟩ := hg
    rw [hu.symm] at h1 h2
    simp [httpGet, cached_of h1 h2 hb hn]

/-- **C26 is false of the code** for an empty answer: it is requested again at once. -/
theorem C26_counterexample :
    ∃ (gs : List Get) (t : Int) (g : Get) (r : Got), StoredAt (trace .empty gs) 0 ['u'] [] t ∧
      (trace .empty gs)[1]? = some (g, r) ∧ g.url = ['u'] ∧ g.now < t + 300 ∧ r.asked = true := by
  refine ⟨[{ url := ['u'], now := 0, writeTime := 0, retryTime := 0, response := .ok [] },
    { url := ['u'], now := 1, writeTime := 1, retryTime := 1, response := .ok [] }], 0, _, _,
    ⟨_, _, rfl, rfl, rfl, rfl, rfl, rfl⟩, rfl, rfl, by decide, rfl⟩

/-! ### C55, C56 -/

/-- **C55.** While the server cannot be reached, or answers with an error, the stored content is returned for the
extended time (720000 seconds) after its download. -/
theorem C55_offline (d : CacheDisk) (gs : List Get) (i k : Nat) (url body : Str) (t : Int) (hik : i < k)
    (hs : StoredAt (trace d gs) i url body t) (hb : body ≠ [])
    (hfail : ∀ j g r, i < j → j ≤ k → (trace d gs)[j]? = some (g, r) → g.url = url → ∀ b, g.response ≠ .ok b)
    (g : Get) (r : Got) (hg : (trace d gs)[k]? = some (g, r)) (hu : g.url = url) (hnow : g.retryTime < t + 720000) :
    r.body = some body := by
  have hlt : k < gs.length := by
    rw [trace_getElem] at hg
    cases hgk : gs[k]? with
    | none => rw [hgk] at hg; cases hg
    | some x => exact (List.getElem?_eq_some_iff.1 hgk).1
  obtain ⟨h1, h2⟩ := kept d gs i url body t hs hb k
    (fun j g r hij hjk htr hu => Or.inr (hfail j g r hij (by omega) htr hu)) hik (by omega)
  have hno := hfail k g r hik (Nat.le_refl _) hg hu
  rw [trace_getElem] at hg
  cases hgk : gs[k]? with
  | none => rw [hgk] at hg; cases hg
  | some x =>
    rw [hgk] at hg
    simp only [Option.map_some, Option.some.injEq, Prod.mk.injEq] at hg
    obtain ⟨rfl, rfl⟩ := hg
    rw [hu.symm] at h1 h2
    cases hc : (diskBefore d gs k).cached x.url maxCacheTime x.now with
    | some b =>
      obtain ⟨h3, -, -⟩ := cached_read hc
      rw [h1] at h3
      cases h3
      simp [httpGet, hc]
    | none =>
      have h4 : (diskBefore d gs k).cached x.url maxCacheTimeOffline x.retryTime = some body := cached_of h1 h2 hb hnow
      cases hresp : x.response with
      | ok b => exact absurd hresp (hno b)
      | status n => simp [httpGet, hc, hresp, h4]
      | failed => simp [httpGet, hc, hresp, h4]

/-- **C56.** A content returned without asking the server is recent: a download of that address was stored less than
five minutes before, and the content is from that download or a later one (complete, unless a process
was cut off while writing it). -/
theorem C56_recent (gs : List Get) (i : Nat) (g : Get) (r : Got)
    (hi : (trace .empty gs)[i]? = some (g, r)) (hr : r.asked = false) :
    ∃ j k b t body rest, j ≤ k ∧ k < i ∧ StoredAt (trace .empty gs) j g.url b t ∧ g.now < t + 300 ∧
      r.body = some body ∧ DownloadAt (trace .empty gs) k g.url (body ++ rest) ∧
      ((∀ g ∈ gs, ∀ n, g.cut ≠ .inContent n) → rest = []) := by
  by_cases hcut : ∀ g ∈ gs, ∀ n, g.cut ≠ .inContent n
  · obtain ⟨d, hinv, rfl⟩ := (Inv.empty Eq).before (fun _ => rfl) gs (fun g hg n hn => absurd hn (hcut g hg n)) i g r hi
    rw [List.nil_append] at hinv
    cases hca : d.cached g.url maxCacheTime g.now with
    | none =>
      cases hresp : g.response <;> simp [httpGet, hca, hresp] at hr
    | some body =>
      obtain ⟨h1, -, s, h2, h3⟩ := cached_read hca
      obtain ⟨j, g', r', b, k1, k2, k3, k4, k5, k6, c, k, b', k7, k8, k9, k10⟩ := hinv.stamp _ _ h2
      rw [h1] at k8
      cases k8
      subst k10
      obtain ⟨k11, k12⟩ := k9.take
      rw [List.getElem?_take_of_lt (by omega)] at k1
      exact ⟨j, k, b, s, body, [], k7, k11, ⟨g', r', k1, k2, k3, k4, k5, k6⟩, h3, by simp [httpGet, hca],
        by simpa using k12, fun _ => rfl⟩
  · obtain ⟨d, hinv, rfl⟩ := (Inv.empty (fun c b => ∃ rest, c ++ rest = b)).before (fun b => ⟨[], by simp⟩) gs
      (fun g _ n _ b => ⟨b.drop n, List.take_append_drop n b⟩) i g r hi
    rw [List.nil_append] at hinv
    cases hca : d.cached g.url maxCacheTime g.now with
    | none =>
      cases hresp : g.response <;> simp [httpGet, hca, hresp] at hr
    | some body =>
      obtain ⟨h1, -, s, h2, h3⟩ := cached_read hca
      obtain ⟨j, g', r', b, k1, k2, k3, k4, k5, k6, c, k, b', k7, k8, k9, rest, rfl⟩ := hinv.stamp _ _ h2
      rw [h1] at k8
      cases k8
      obtain ⟨k11, k12⟩ := k9.take
      rw [List.getElem?_take_of_lt (by omega)] at k1
      exact ⟨j, k, b, s, body, rest, k7, k11, ⟨g', r', k1, k2, k3, k4, k5, k6⟩, h3, by simp [httpGet, hca],
        k12, fun h => absurd h hcut⟩

/-- A history meeting the hypotheses: a download, a request for another address, two more requests within the
window, a failing one after it. -/
example : (trace .empty
    [{ url := ['u'], now := 10, writeTime := 11, retryTime := 0, response := .ok "abc".toList },
     { url := ['v'], now := 20, writeTime := 21, retryTime := 0, response := .ok "def".toList, cut := .inContent 1, dies := true },
     { url := ['u'], now := 200, writeTime := 0, retryTime := 0, response := .ok "new".toList },
     { url := ['u'], now := 310, writeTime := 0, retryTime := 0, response := .failed },
     { url := ['u'], now := 311, writeTime := 312, retryTime := 312, response := .status 500 },
     { url := ['u'], now := 320, writeTime := 321, retryTime := 322, response := .ok "new".toList }]).map (·.2) =
    [⟨some "abc".toList, true⟩, ⟨none, true⟩, ⟨some "abc".toList, false⟩, ⟨some "abc".toList, false⟩,
     ⟨some "abc".toList, true⟩, ⟨some "new".toList, true⟩] := by decide +kernel

end Verif
