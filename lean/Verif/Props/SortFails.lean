import Verif.Props.Ordering
import Verif.Lemmas.Paths

/-!
C19: ordering the found problems never ends with an exception.
-/

namespace Verif

/-- There are no symbolic links: resolving a path only removes `.` and `..`. -/
def FsEnv.NoLinks (fs : FsEnv) : Prop := ∀ cs, fs.resolve cs = normComps true [] cs

/-- A path given without `..` (and without the unusual root `//`). -/
def PlainPath (s : Str) : Prop := s ≠ [] ∧ ['.', '.'] ∉ pathParts s ∧ rootOf s ≤ 1

/-- The path `s` names a given path or something below it. -/
def Below (files : List Str) (s : Str) : Prop :=
  ∃ fd ∈ files, (PPath.parse fd).root = (PPath.parse s).root ∧
    (PPath.parse fd).parts <+: (PPath.parse s).parts

/-- The components of the absolute path that `s` stands for. -/
def absParts (fs : FsEnv) (s : Str) : List Str :=
  if rootOf s = 0 then fs.cwd ++ pathParts s else pathParts s

/-- The absolute path of `s` is that of a given path or below it. -/
def AbsBelow (fs : FsEnv) (files : List Str) (s : Str) : Prop :=
  ∃ fd ∈ files, absParts fs fd <+: absParts fs s

theorem pathIndexFrom_of_below {path : PPath} {files : List Str} {fd : Str} (hfd : fd ∈ files)
    (h : (PPath.parse fd).root = path.root ∧ (PPath.parse fd).parts <+: path.parts) (b : Int) :
    ∃ i, pathIndexFrom path b files = .ok i := by
  induction files generalizing b with
  | nil => simp at hfd
  | cons f fs ih =>
    simp only [pathIndexFrom]
    split
    · exact ⟨b, rfl⟩
    · rename_i hb
      rcases List.mem_cons.1 hfd with rfl | hfd
      · exact absurd ((below_iff _ _).2 h) hb
      · exact ih hfd (b + 1)

theorem pathIndex_of_below {files : List Str} {s : Str} (h : Below files s) :
    ∃ i, pathIndex files s = .ok i := by
  unfold pathIndex
  split
  · exact ⟨_, rfl⟩
  · obtain ⟨fd, hfd, h⟩ := h
    exact pathIndexFrom_of_below hfd h 0

theorem below_congr {files : List Str} {s t : Str} (h : PPath.parse s = PPath.parse t) (ht : Below files t) :
    Below files s := by
  unfold Below at *
  rwa [h]

/-- What flake8 reports for a file below a given path can be placed. -/
theorem flake8_below {fs : FsEnv} (hfs : fs.Normal) {files : List Str} (raw : Flake8Raw)
    (hraw : raw.filename ≠ []) (hdots : ['.', '.'] ∉ pathParts raw.filename)
    (hb : Below files raw.filename) (en : Dict Str Str) :
    ∃ p, flake8ToProblem fs en raw = .ok p ∧ Below files p.path := by
  obtain ⟨q, h1, h2⟩ := parse_properPath hfs hraw hdots
  exact ⟨_, by rw [flake8ToProblem, h1], below_congr h2 hb⟩

theorem resolved_plain {fs : FsEnv} (hfs : fs.Normal) (hl : fs.NoLinks) {s : Str}
    (h : ['.', '.'] ∉ pathParts s) : resolved fs s = absParts fs s := by
  have hcwd : ∀ c ∈ fs.cwd, c ≠ ['.', '.'] := fun c hc => (hfs c hc).2
  have hgood : ∀ c ∈ pathParts s, GoodComp c := fun c hc => goodComp_of_pathParts hc
  have hr : resolved fs s = fs.resolve (if rootOf s = 0 then fs.cwd ++ pathParts s else pathParts s) := rfl
  rw [hr, hl, absParts]
  by_cases h0 : rootOf s = 0
  · rw [if_pos h0]
    rw [normComps_plain, List.reverse_nil, List.nil_append, List.filter_eq_self]
    · intro c hc
      rcases List.mem_append.1 hc with hc | hc
      · simp [(hfs c hc).1.1, (hfs c hc).1.2.1]
      · simp [(hgood c hc).1, (hgood c hc).2.1]
    · rw [List.mem_append]
      rintro (hc | hc)
      · exact hcwd _ hc rfl
      · exact h hc
  · rw [if_neg h0]
    rw [normComps_plain h, List.reverse_nil, List.nil_append, List.filter_eq_self]
    intro c hc
    simp [(hgood c hc).1, (hgood c hc).2.1]

theorem loopIndex_below (x : Str) (cwd rel : List Str) :
    loopIndex (x :: cwd) (x :: (cwd ++ rel)) = cwd.length := by
  induction cwd generalizing x with
  | nil => cases rel <;> rfl
  | cons c cwd ih =>
    simp only [List.cons_append, loopIndex, ne_eq, not_true_eq_false, if_false, ih, List.length_cons]

theorem absParts_good {fs : FsEnv} (hfs : fs.Normal) (s : Str) : ∀ c ∈ absParts fs s, GoodComp c := by
  intro c hc
  unfold absParts at hc
  split at hc
  · rcases List.mem_append.1 hc with hc | hc
    · exact (hfs c hc).1
    · exact goodComp_of_pathParts hc
  · exact goodComp_of_pathParts hc

theorem absParts_nodots {fs : FsEnv} (hfs : fs.Normal) {s : Str} (h : ['.', '.'] ∉ pathParts s) :
    ['.', '.'] ∉ absParts fs s := by
  unfold absParts
  split
  · rw [List.mem_append]
    rintro (hc | hc)
    · exact (hfs _ hc).2 rfl
    · exact h hc
  · exact h

theorem splitOn_showPath {cs : List Str} (hne : cs ≠ []) (h : ∀ c ∈ cs, GoodComp c) :
    splitOn '/' (showPath 0 cs) = cs ∧ rootOf (showPath 0 cs) = 0 ∧ showPath 0 cs ≠ [] := by
  obtain ⟨x, s, hj, hx⟩ := join_head h hne
  have : showPath 0 cs = x :: s := by simp [showPath, hj]
  rw [this, ← hj]
  refine ⟨splitOn_join hne fun w hw => (h w hw).2.2, ?_, by simp [hj]⟩
  rw [hj]; exact rootOf_other s hx

/-- Going up one directory and down again changes nothing. -/
theorem normComps_updown {pre rel : List Str} {l : Str}
    (hpre : ∀ c ∈ pre ++ l :: rel, GoodComp c ∧ c ≠ ['.', '.']) :
    normComps true [] (pre ++ [l] ++ ['.', '.'] :: l :: rel) = pre ++ l :: rel := by
  have hstep : ∀ (acc cs tl : List Str), (∀ c ∈ cs, GoodComp c ∧ c ≠ ['.', '.']) →
      normComps true acc (cs ++ tl) = normComps true (cs.reverse ++ acc) tl := by
    intro acc cs tl hcs
    induction cs generalizing acc with
    | nil => rfl
    | cons c cs ih =>
      have hc := hcs c (by simp)
      have : ¬ (c = [] ∨ c = ['.']) := by simp [hc.1.1, hc.1.2.1]
      simp only [List.cons_append, normComps, this, hc.2, if_false, ne_eq, not_false_eq_true, if_true]
      rw [ih _ fun d hd => hcs d (by simp [hd])]
      simp
  have hl := hpre l (by simp)
  rw [List.append_assoc, hstep [] pre _ fun c hc => hpre c (by simp [hc])]
  have h1 : ¬ (l = [] ∨ l = ['.']) := by simp [hl.1.1, hl.1.2.1]
  have h2 : ¬ ((['.', '.'] : Str) = [] ∨ (['.', '.'] : Str) = ['.']) := by decide
  simp only [List.cons_append, List.nil_append, List.append_nil]
  have e1 : ∀ tl, normComps true pre.reverse (l :: tl) = normComps true (l :: pre.reverse) tl := by
    intro tl; simp only [normComps, h1, hl.2, if_false, ne_eq, not_false_eq_true, if_true]
  have e2 : ∀ tl, normComps true (l :: pre.reverse) (['.', '.'] :: tl) = normComps true pre.reverse tl := by
    intro tl
    simp only [normComps, h2, hl.2, if_false, ne_eq, not_true_eq_false]
  have e3 := hstep pre.reverse (l :: rel) [] fun c hc => hpre c (List.mem_append_right _ hc)
  rw [List.append_nil] at e3
  rw [e1, e2, e3]
  simp [normComps]

/-- What pylint reports for a file below a given path can be placed. -/
theorem pylint_below {fs : FsEnv} (hfs : fs.Normal) (hl : fs.NoLinks) (hcwd : fs.cwd ≠ [])
    {files : List Str} (hfiles : ∀ fd ∈ files, PlainPath fd) (raw : PylintRaw)
    (hdots : ['.', '.'] ∉ pathParts raw.path) (hb : AbsBelow fs files raw.path)
    (hout : isOutOfFile raw.path = false) (en : Dict Str Str) :
    ∃ p, pylintToProblem fs files en raw = .ok p ∧ Below files p.path := by
  have hres := resolved_plain hfs hl hdots
  obtain ⟨fd0, hfd0, hpre0⟩ := hb
  have hfind : ∃ fd, files.find? (fun fd => (resolved fs fd).isPrefixOf (resolved fs raw.path)) = some fd := by
    rw [← Option.isSome_iff_exists, List.find?_isSome]
    refine ⟨fd0, hfd0, ?_⟩
    rw [resolved_plain hfs hl (hfiles fd0 hfd0).2.1, hres]
    exact List.isPrefixOf_iff_prefix.2 hpre0
  obtain ⟨fd, hfd⟩ := hfind
  have hmem := List.mem_of_find?_eq_some hfd
  have hpre := List.find?_some hfd
  rw [resolved_plain hfs hl (hfiles fd hmem).2.1, hres, List.isPrefixOf_iff_prefix] at hpre
  have hgood := absParts_good hfs raw.path
  have hnod := absParts_nodots hfs hdots
  -- the name computed by `get_used_filename` and its normal form
  suffices hs : ∃ used q, usedFilename fs files raw.path = .ok used ∧ properPath fs used = .ok q ∧
      Below files q by
    obtain ⟨used, q, h1, h2, h3⟩ := hs
    exact ⟨_, by rw [pylintToProblem, h1]; simp only [h2]; rfl, h3⟩
  unfold usedFilename
  rw [hout]
  simp only [Bool.false_eq_true, if_false, hfd]
  by_cases habs : rootOf fd = 0
  · -- a relative path was given
    have hfdabs : absParts fs fd = fs.cwd ++ pathParts fd := by simp [absParts, habs]
    rw [hfdabs] at hpre
    obtain ⟨t, ht⟩ := hpre
    obtain ⟨pre, l, hpl⟩ : ∃ pre l, fs.cwd = pre ++ [l] :=
      ⟨_, _, (List.dropLast_concat_getLast hcwd).symm⟩
    have habsRel : absParts fs raw.path = fs.cwd ++ (pathParts fd ++ t) := by rw [← ht, List.append_assoc]
    generalize hrel : pathParts fd ++ t = rel at habsRel
    have hroot : ¬ (PPath.parse fd).root ≠ 0 := by simp [PPath.parse, habs]
    rw [if_neg hroot, hres, habsRel, loopIndex_below]
    have hlen : fs.cwd.length ≠ 0 := by simpa using hcwd
    rw [if_neg hlen]
    have hdrop : (['/'] :: (fs.cwd ++ rel)).drop fs.cwd.length = l :: rel := by
      rw [hpl]
      simp
    rw [hdrop]
    have hrep : List.replicate ((['/'] :: fs.cwd).length - fs.cwd.length) (['.', '.'] : Str) = [['.', '.']] := by
      simp
    rw [hrep]
    have hgl : ∀ c ∈ pre ++ l :: rel, GoodComp c ∧ c ≠ ['.', '.'] := by
      intro c hc
      have : c ∈ absParts fs raw.path := by rw [habsRel, hpl]; simpa using hc
      exact ⟨hgood c this, fun e => hnod (e ▸ this)⟩
    have hup : GoodComp ['.', '.'] := by
      refine ⟨by simp, by simp, by decide⟩
    have hgc : ∀ c ∈ [['.', '.']] ++ l :: rel, GoodComp c := by
      intro c hc
      rcases List.mem_append.1 hc with hc | hc
      · simp only [List.mem_singleton] at hc; subst hc; exact hup
      · exact (hgl c (List.mem_append_right _ hc)).1
    obtain ⟨s1, s2, s3⟩ := splitOn_showPath (by simp) hgc
    refine ⟨_, showPath 0 rel, rfl, ?_, ?_⟩
    · rw [properPath, hasRoot, s2]
      simp only [ne_eq, not_true_eq_false, decide_false, Bool.false_eq_true, if_false]
      rw [relPath, if_neg s3, absComps, hasRoot, s2]
      simp only [ne_eq, not_true_eq_false, decide_false, Bool.false_eq_true, if_false]
      rw [s1]
      have := normComps_updown hgl
      rw [← hpl] at this
      rw [List.singleton_append, this]
      have : pre ++ l :: rel = fs.cwd ++ rel := by rw [hpl]; simp
      rw [this, relComps_below]
    · refine ⟨fd, hmem, ?_⟩
      have hgr : ∀ c ∈ rel, GoodComp c := fun c hc => (hgl c (by simp [hc])).1
      rw [parse_showPath (by omega) hgr]
      exact ⟨habs, ⟨t, hrel⟩⟩
  · -- an absolute path was given
    have hroot : (PPath.parse fd).root ≠ 0 := habs
    have h1 : rootOf fd = 1 := by have := (hfiles fd hmem).2.2; omega
    have hfdabs : absParts fs fd = pathParts fd := by simp [absParts, habs]
    rw [hfdabs] at hpre
    rw [if_pos hroot, hres]
    generalize absParts fs raw.path = abs at *
    have hshow : PPath.parse (showPath 1 abs) = ⟨1, abs⟩ := parse_showPath (by omega) hgood
    have hne : showPath 1 abs ≠ [] := by simp [showPath]
    have hnd : ['.', '.'] ∉ pathParts (showPath 1 abs) := by
      have : pathParts (showPath 1 abs) = abs := congrArg PPath.parts hshow
      rw [this]; exact hnod
    obtain ⟨q, hq1, hq2⟩ := parse_properPath hfs hne hnd
    refine ⟨_, q, rfl, hq1, fd, hmem, ?_⟩
    rw [hq2, hshow]
    exact ⟨h1, hpre⟩

theorem mapE_ok {α β : Type} {f : α → Except PyErr β} {P : β → Prop} {l : List α}
    (h : ∀ a ∈ l, ∃ b, f a = .ok b ∧ P b) : ∃ bs, mapE f l = .ok bs ∧ ∀ b ∈ bs, P b := by
  induction l with
  | nil => exact ⟨[], rfl, by simp⟩
  | cons a l ih =>
    obtain ⟨b, h1, h2⟩ := h a (by simp)
    obtain ⟨bs, h3, h4⟩ := ih fun x hx => h x (by simp [hx])
    refine ⟨b :: bs, by simp [mapE, h1, h3], ?_⟩
    intro x hx
    rcases List.mem_cons.1 hx with rfl | hx
    · exact h2
    · exact h4 x hx

/-- **C19** for plain paths: if the paths are given without `..`, there are no symbolic links and the
current directory is not the root, then whatever the linters report about files below the given
paths is converted to problems without an exception, and any list of problems at these places
can be ordered. Missing: the spellings of the counterexamples below, for which the property is false. -/
theorem C19_sort_partial (fs : FsEnv) (hfs : fs.Normal) (hl : fs.NoLinks) (hcwd : fs.cwd ≠ [])
    (files : List Str) (hfiles : ∀ fd ∈ files, PlainPath fd) (en : Dict Str Str)
    (flake8 : List Flake8Raw) (pylint : List PylintRaw)
    (hf : ∀ r ∈ flake8, r.filename ≠ [] ∧ ['.', '.'] ∉ pathParts r.filename ∧ Below files r.filename)
    (hp : ∀ r ∈ pylint, ['.', '.'] ∉ pathParts r.path ∧ isOutOfFile r.path = false ∧
      AbsBelow fs files r.path) :
    ∃ a b, mapE (flake8ToProblem fs en) flake8 = .ok a ∧
      mapE (pylintToProblem fs files en) pylint = .ok b ∧
      ∀ ps : List Problem, (∀ p ∈ ps, ∃ q ∈ a ++ b, p.path = q.path) →
        ∃ out, sortProblems files ps = .ok out := by
  obtain ⟨a, ha1, ha2⟩ := mapE_ok (P := fun p : Problem => Below files p.path) (l := flake8)
    fun r hr => flake8_below hfs r (hf r hr).1 (hf r hr).2.1 (hf r hr).2.2 en
  obtain ⟨b, hb1, hb2⟩ := mapE_ok (P := fun p : Problem => Below files p.path) (l := pylint)
    fun r hr => pylint_below hfs hl hcwd hfiles r (hp r hr).1 (hp r hr).2.2 (hp r hr).2.1 en
  refine ⟨a, b, ha1, hb1, ?_⟩
  intro ps hps
  obtain ⟨l, hl⟩ := withIndices_of_ok (files := files) (ps := ps) fun (p : Problem) hpp => by
    obtain ⟨q, hq, heq⟩ := hps p hpp
    rw [heq]
    refine pathIndex_of_below ?_
    rcases List.mem_append.1 hq with hq | hq
    · exact ha2 q hq
    · exact hb2 q hq
  exact ⟨_, by rw [sortProblems, hl]⟩

/-- The file system of the examples: `/home/me`, no symbolic links. -/
def exFs : FsEnv := ⟨["home".toList, "me".toList], normComps true []⟩

example : exFs.Normal ∧ exFs.NoLinks ∧ exFs.cwd ≠ [] := by
  refine ⟨?_, fun _ => rfl, by decide⟩
  intro c hc
  simp only [exFs, List.mem_cons, List.not_mem_nil, or_false] at hc
  rcases hc with rfl | rfl <;> exact ⟨⟨by decide, by decide, by decide⟩, by decide⟩

example : pylintToProblem exFs ["src".toList] []
    ⟨"src/a.py".toList, 3, 0, "C0103".toList, [], none, none, "invalid-name".toList⟩
    = .ok ⟨.pylint, none, "src/a.py".toList, 3, 0, "C0103".toList, [], none, none,
        some "invalid-name".toList⟩ := by decide

/-- **C19 is false of the code**: `edulint check a/../b.py`. flake8's report of that file is stored as `b.py`,
which is not below the given path, and ordering fails with an assertion. -/
theorem C19_counterexample_dotdot :
    ∃ fs raw p, flake8ToProblem fs [] raw = .ok p ∧ raw.filename = "a/../b.py".toList ∧
      sortProblems ["a/../b.py".toList] [p] = .error .assertionError :=
  ⟨exFs, ⟨"a/../b.py".toList, 1, 1, "W391".toList, []⟩,
    ⟨.flake8, none, "b.py".toList, 1, 1, "W391".toList, [], none, none, none⟩, by decide, rfl, by decide⟩

/-- `edulint check ..`: files in the current directory are stored without the leading `../me`. -/
theorem C19_counterexample_parent :
    ∃ fs raw p, flake8ToProblem fs [] raw = .ok p ∧ raw.filename = "../me/b.py".toList ∧
      sortProblems ["..".toList] [p] = .error .assertionError :=
  ⟨exFs, ⟨"../me/b.py".toList, 1, 1, "W391".toList, []⟩,
    ⟨.flake8, none, "b.py".toList, 1, 1, "W391".toList, [], none, none, none⟩, by decide, rfl, by decide⟩

/-- `edulint check link.py` where `link.py` is a symbolic link to `real.py`: pylint's reports are stored
under the resolved name. -/
theorem C19_counterexample_symlink :
    ∃ (fs : FsEnv) (raw : PylintRaw) (p : Problem), fs.Normal ∧
      pylintToProblem fs ["link.py".toList] [] raw = .ok p ∧ raw.path = "link.py".toList ∧
      sortProblems ["link.py".toList] [p] = .error .assertionError := by
  refine ⟨⟨["home".toList, "me".toList], fun cs =>
      if cs = ["home".toList, "me".toList, "link.py".toList]
      then ["home".toList, "me".toList, "real.py".toList] else normComps true [] cs⟩,
    ⟨"link.py".toList, 3, 0, "C0103".toList, [], none, none, "invalid-name".toList⟩,
    ⟨.pylint, none, "real.py".toList, 3, 0, "C0103".toList, [], none, none,
        some "invalid-name".toList⟩, ?_, by decide, rfl, by decide⟩
  intro c hc
  simp only [List.mem_cons, List.not_mem_nil, or_false] at hc
  rcases hc with rfl | rfl <;> exact ⟨⟨by decide, by decide, by decide⟩, by decide⟩

/-- In the root directory, relative paths fail: pylint's reports are stored with an absolute path. -/
theorem C19_counterexample_root :
    ∃ (fs : FsEnv) (raw : PylintRaw) (p : Problem), fs.Normal ∧ fs.NoLinks ∧
      pylintToProblem fs ["b.py".toList] [] raw = .ok p ∧ raw.path = "b.py".toList ∧
      sortProblems ["b.py".toList] [p] = .error .assertionError := by
  refine ⟨⟨[], normComps true []⟩,
    ⟨"b.py".toList, 3, 0, "C0103".toList, [], none, none, "invalid-name".toList⟩,
    ⟨.pylint, none, "/b.py".toList, 3, 0, "C0103".toList, [], none, none,
        some "invalid-name".toList⟩, ?_, fun _ => rfl, by decide, rfl, by decide⟩
  intro c hc
  simp at hc

end Verif
