import Verif.Model.Streams

/-!
C147: Linters write to nobody else's streams.
-/

namespace Verif.Streams

/-- What a linter writes, by where it writes it. -/
def printed (acts : List Act) : Str := acts.flatMap fun a => match a with | .print t => t | _ => []
def warned (acts : List Act) : Str := acts.flatMap fun a => match a with | .warn t => t | _ => []
def reported (acts : List Act) : Str := acts.flatMap fun a => match a with | .report t => t | _ => []
def heldAt (i : Nat) (acts : List Act) : Str := acts.flatMap fun a => match a with | .held j t => if j = i then t else [] | _ => []

/-- What appears at a stream that `print` goes to, too. -/
def printedOrHeld (i : Nat) (acts : List Act) : Str :=
  acts.flatMap fun a => match a with | .print t => t | .held j t => if j = i then t else [] | _ => []

/-- The streams that the linter knows are older than its run. -/
def Knows (n : Nat) (p : Prog) : Prop := ∀ i t, Act.held i t ∈ p.acts → i < n

/-- The streams exist. -/
def World.Ok (w : World) : Prop := w.out < w.next ∧ w.err < w.next

theorem foldl_fixed (r : Nat) : ∀ (acts : List Act) (w : World), (acts.foldl (Act.exec r) w).out = w.out ∧ (acts.foldl (Act.exec r) w).err = w.err ∧
    (acts.foldl (Act.exec r) w).next = w.next
  | [], _ => ⟨rfl, rfl, rfl⟩
  | a :: acts, w => by
    obtain ⟨h1, h2, h3⟩ := foldl_fixed r acts (Act.exec r w a)
    rw [List.foldl_cons, h1, h2, h3]
    cases a <;> exact ⟨rfl, rfl, rfl⟩

/-- What an action writes to a stream. -/
def at' (r out err i : Nat) : Act → Str
  | .print t => if out = i then t else []
  | .warn t => if err = i then t else []
  | .report t => if r = i then t else []
  | .held j t => if j = i then t else []

theorem exec_text (r : Nat) (w : World) (a : Act) (i : Nat) : (Act.exec r w a).text i = w.text i ++ at' r w.out w.err i a := by
  cases a <;> simp only [Act.exec, World.write, at'] <;> split <;> simp_all [eq_comm]

theorem foldl_text (r : Nat) (i : Nat) : ∀ (acts : List Act) (w : World), (acts.foldl (Act.exec r) w).text i = w.text i ++ acts.flatMap (at' r w.out w.err i)
  | [], _ => by simp
  | a :: acts, w => by
    have h1 : (Act.exec r w a).out = w.out := by cases a <;> rfl
    have h2 : (Act.exec r w a).err = w.err := by cases a <;> rfl
    rw [List.foldl_cons, foldl_text r i acts, exec_text, h1, h2, List.flatMap_cons, List.append_assoc]

theorem flatMap_congr' {l : List Act} {f g : Act → Str} (h : ∀ a ∈ l, f a = g a) : l.flatMap f = l.flatMap g := by
  induction l with
  | nil => rfl
  | cons a l ih => rw [List.flatMap_cons, List.flatMap_cons, h a (by simp), ih fun b hb => h b (by simp [hb])]

/-- C147: Unless flake8 raises an exception other than `SystemExit`, the streams are those from before, and nothing was written to them that it does not write to streams that
it knew before. What is taken for its output is what it printed; for its errors, what it wrote to `sys.stderr`. -/
theorem C147_flake8_partial {w : World} (hw : w.Ok) {p : Prog} (hk : Knows w.next p) (hn : ∀ t, Act.report t ∉ p.acts) (he : p.ends ≠ .raised) :
    (flake8 w p).1.out = w.out ∧ (flake8 w p).1.err = w.err ∧ (∀ i < w.next, (flake8 w p).1.text i = w.text i ++ heldAt i p.acts) ∧
    (flake8 w p).2 = .result (match p.ends with | .exit code => code | _ => some 0) (printed p.acts) (warned p.acts) := by
  have htext : ∀ i < w.next, p.acts.flatMap (at' w.next w.next (w.next + 1) i) = heldAt i p.acts := by
    intro i hi
    refine flatMap_congr' fun a ha => ?_
    cases a with
    | print t => simp only [at']; rw [if_neg (by omega)]
    | warn t => simp only [at']; rw [if_neg (by omega)]
    | report t => exact absurd ha (hn t)
    | held j t => rfl
  have hout : p.acts.flatMap (at' w.next w.next (w.next + 1) w.next) = printed p.acts := by
    refine flatMap_congr' fun a ha => ?_
    cases a with
    | print t => simp [at']
    | warn t => simp [at']
    | report t => exact absurd ha (hn t)
    | held j t =>
      have := hk j t ha
      simp only [at']; rw [if_neg (by omega)]
  have herr : p.acts.flatMap (at' w.next w.next (w.next + 1) (w.next + 1)) = warned p.acts := by
    refine flatMap_congr' fun a ha => ?_
    cases a with
    | print t => simp [at']
    | warn t => simp [at']
    | report t => exact absurd ha (hn t)
    | held j t =>
      have := hk j t ha
      simp only [at']; rw [if_neg (by omega)]
  cases hp : p.ends with
  | raised => exact absurd hp he
  | done =>
    simp only [flake8, World.new, hp, foldl_text, foldl_fixed, hout, herr]
    refine ⟨trivial, trivial, fun i hi => ?_, by simp⟩
    have a : ¬ i = w.next := by omega
    have b : ¬ i = w.next + 1 := by omega
    simp only [htext i hi, a, b, if_false]
  | exit code =>
    simp only [flake8, World.new, hp, foldl_text, foldl_fixed, hout, herr]
    refine ⟨trivial, trivial, fun i hi => ?_, by simp⟩
    have a : ¬ i = w.next := by omega
    have b : ¬ i = w.next + 1 := by omega
    simp only [htext i hi, a, b, if_false]

/-- C147: The same for pylint, but what it prints appears at `sys.stdout`. What is taken for its output is what it wrote to its reporter's. -/
theorem C147_pylint_partial {w : World} (hw : w.Ok) {p : Prog} (hk : Knows w.next p) (he : p.ends ≠ .raised) :
    (pylint w p).1.out = w.out ∧ (pylint w p).1.err = w.err ∧ (∀ i < w.next, i ≠ w.out → (pylint w p).1.text i = w.text i ++ heldAt i p.acts) ∧
    (pylint w p).1.text w.out = w.text w.out ++ printedOrHeld w.out p.acts ∧
    (pylint w p).2 = .result (match p.ends with | .exit code => code | _ => some 0) (reported p.acts) (warned p.acts) := by
  have hwo := hw.1
  have htext : ∀ i < w.next, i ≠ w.out → p.acts.flatMap (at' w.next w.out (w.next + 1) i) = heldAt i p.acts := by
    intro i hi hio
    refine flatMap_congr' fun a ha => ?_
    cases a with
    | print t => simp only [at']; rw [if_neg (fun h => hio h.symm)]
    | warn t => simp only [at']; rw [if_neg (by omega)]
    | report t => simp only [at']; rw [if_neg (by omega)]
    | held j t => rfl
  have hstd : p.acts.flatMap (at' w.next w.out (w.next + 1) w.out) = printedOrHeld w.out p.acts := by
    refine flatMap_congr' fun a ha => ?_
    cases a with
    | print t => simp [at']
    | warn t => simp only [at']; rw [if_neg (by omega)]
    | report t => simp only [at']; rw [if_neg (by omega)]
    | held j t => rfl
  have hout : p.acts.flatMap (at' w.next w.out (w.next + 1) w.next) = reported p.acts := by
    refine flatMap_congr' fun a ha => ?_
    cases a with
    | print t => simp only [at']; rw [if_neg (by omega)]
    | warn t => simp [at']
    | report t => simp [at']
    | held j t =>
      have := hk j t ha
      simp only [at']; rw [if_neg (by omega)]
  have herr : p.acts.flatMap (at' w.next w.out (w.next + 1) (w.next + 1)) = warned p.acts := by
    refine flatMap_congr' fun a ha => ?_
    cases a with
    | print t => simp only [at']; rw [if_neg (by omega)]
    | warn t => simp [at']
    | report t => simp [at']
    | held j t =>
      have := hk j t ha
      simp only [at']; rw [if_neg (by omega)]
  cases hp : p.ends with
  | raised => exact absurd hp he
  | done =>
    simp only [pylint, World.new, hp, foldl_text, foldl_fixed, hout, herr, hstd]
    refine ⟨trivial, trivial, fun i hi hio => ?_, ?_, by simp⟩
    · have a : ¬ i = w.next := by omega
      have b : ¬ i = w.next + 1 := by omega
      simp only [htext i hi hio, a, b, if_false]
    · have a : ¬ w.out = w.next := by omega
      have b : ¬ w.out = w.next + 1 := by omega
      simp only [a, b, if_false]
  | exit code =>
    simp only [pylint, World.new, hp, foldl_text, foldl_fixed, hout, herr, hstd]
    refine ⟨trivial, trivial, fun i hi hio => ?_, ?_, by simp⟩
    · have a : ¬ i = w.next := by omega
      have b : ¬ i = w.next + 1 := by omega
      simp only [htext i hi hio, a, b, if_false]
    · have a : ¬ w.out = w.next := by omega
      have b : ¬ w.out = w.next + 1 := by omega
      simp only [a, b, if_false]

theorem next_flake8 (w : World) (p : Prog) : (flake8 w p).1.next = w.next + 2 := by
  cases hp : p.ends <;> simp only [flake8, World.new, hp, foldl_fixed]

theorem next_pylint (w : World) (p : Prog) : (pylint w p).1.next = w.next + 2 := by
  cases hp : p.ends <;> simp only [pylint, World.new, hp, foldl_fixed]

/-- What a run results in that ends without an exception. -/
def outcome : Bool × Prog → Caught
  | (isFlake8, p) => .result (match p.ends with | .exit code => code | _ => some 0) (if isFlake8 then printed p.acts else reported p.acts) (warned p.acts)

/-- C147: Of several runs, each has just its own output and errors; in the end, the streams are those from before. If pylint prints nothing, and nobody writes to streams that
they knew before, nothing was written to them. -/
theorem C147_runs_partial : ∀ {l : List (Bool × Prog)} {w : World}, w.Ok → (∀ r ∈ l, Knows w.next r.2) → (∀ r ∈ l, r.1 = true → ∀ t, Act.report t ∉ r.2.acts) →
    (∀ r ∈ l, r.2.ends ≠ .raised) →
    (runs w l).2 = l.map outcome ∧ (runs w l).1.out = w.out ∧ (runs w l).1.err = w.err ∧
    ((∀ r ∈ l, (r.1 = false → ∀ t, Act.print t ∉ r.2.acts) ∧ ∀ i t, Act.held i t ∉ r.2.acts) → ∀ i < w.next, (runs w l).1.text i = w.text i)
  | [], _, _, _, _, _ => ⟨rfl, rfl, rfl, fun _ _ _ => rfl⟩
  | (b, p) :: l, w, hw, hk, hn, he => by
    have hheld : ∀ i, (∀ j t, Act.held j t ∉ p.acts) → heldAt i p.acts = [] := by
      intro i h
      refine List.flatMap_eq_nil_iff.2 fun a ha => ?_
      cases a with
      | held j t => exact absurd ha (h j t)
      | print t => rfl
      | warn t => rfl
      | report t => rfl
    have hboth : ∀ i, (∀ t, Act.print t ∉ p.acts) → (∀ j t, Act.held j t ∉ p.acts) → printedOrHeld i p.acts = [] := by
      intro i h' h
      refine List.flatMap_eq_nil_iff.2 fun a ha => ?_
      cases a with
      | held j t => exact absurd ha (h j t)
      | print t => exact absurd ha (h' t)
      | warn t => rfl
      | report t => rfl
    cases b with
    | true =>
      obtain ⟨h1, h2, h3, h4⟩ := C147_flake8_partial (p := p) hw (hk (true, p) (by simp)) (hn (true, p) (by simp) rfl) (he (true, p) (by simp))
      have hnext := next_flake8 w p
      obtain ⟨i1, i2, i3, i4⟩ := C147_runs_partial (l := l) (w := (flake8 w p).1) ⟨by rw [h1, hnext]; have := hw.1; omega, by rw [h2, hnext]; have := hw.2; omega⟩
        (fun r hr i t hm => by have := hk r (List.mem_cons_of_mem _ hr) i t hm; omega) (fun r hr => hn r (List.mem_cons_of_mem _ hr)) (fun r hr => he r (List.mem_cons_of_mem _ hr))
      have hruns : runs w ((true, p) :: l) = ((runs (flake8 w p).1 l).1, (flake8 w p).2 :: (runs (flake8 w p).1 l).2) := by
        rw [runs, if_pos rfl]
        generalize flake8 w p = q at h4 ⊢
        obtain ⟨q1, q2⟩ := q
        dsimp only at h4
        subst h4
        rfl
      rw [hruns]
      refine ⟨by rw [List.map_cons, i1, h4]; rfl, by rw [i2, h1], by rw [i3, h2], fun hs i hi => ?_⟩
      rw [i4 (fun r hr => hs r (List.mem_cons_of_mem _ hr)) i (by omega), h3 i hi, hheld i (hs (true, p) (by simp)).2, List.append_nil]
    | false =>
      obtain ⟨h1, h2, h3, h5, h4⟩ := C147_pylint_partial (p := p) hw (hk (false, p) (by simp)) (he (false, p) (by simp))
      have hnext := next_pylint w p
      obtain ⟨i1, i2, i3, i4⟩ := C147_runs_partial (l := l) (w := (pylint w p).1) ⟨by rw [h1, hnext]; have := hw.1; omega, by rw [h2, hnext]; have := hw.2; omega⟩
        (fun r hr i t hm => by have := hk r (List.mem_cons_of_mem _ hr) i t hm; omega) (fun r hr => hn r (List.mem_cons_of_mem _ hr)) (fun r hr => he r (List.mem_cons_of_mem _ hr))
      have hruns : runs w ((false, p) :: l) = ((runs (pylint w p).1 l).1, (pylint w p).2 :: (runs (pylint w p).1 l).2) := by
        rw [runs, if_neg (by simp)]
        generalize pylint w p = q at h4 ⊢
        obtain ⟨q1, q2⟩ := q
        dsimp only at h4
        subst h4
        rfl
      rw [hruns]
      refine ⟨by rw [List.map_cons, i1, h4]; rfl, by rw [i2, h1], by rw [i3, h2], fun hs i hi => ?_⟩
      rw [i4 (fun r hr => hs r (List.mem_cons_of_mem _ hr)) i (by omega)]
      by_cases hi' : i = w.out
      · rw [hi', h5, hboth w.out ((hs (false, p) (by simp)).1 rfl) (hs (false, p) (by simp)).2, List.append_nil]
      · rw [h3 i hi hi', hheld i (hs (false, p) (by simp)).2, List.append_nil]

/-! ### Examples and counterexamples -/

/-- Standard output and standard error of the interpreter. -/
def exWorld : World := ⟨0, 1, fun _ => [], 2⟩
def exFlake8 : Prog := ⟨[.print "{}".toList, .warn "deprecated".toList], .exit (some 1)⟩
def exPylint : Prog := ⟨[.report "[]".toList, .held 1 "log".toList], .done⟩

example : exWorld.Ok := ⟨by decide, by decide⟩

example : Knows exWorld.next exPylint := by
  intro i t h
  simp [exPylint] at h
  rw [h.1]
  decide

example : (runs exWorld [(true, exFlake8), (false, exPylint)]).2 = [.result (some 1) "{}".toList "deprecated".toList, .result (some 0) "[]".toList []] ∧
    (runs exWorld [(true, exFlake8), (false, exPylint)]).1.text 1 = "log".toList ∧ (runs exWorld [(true, exFlake8), (false, exPylint)]).1.text 0 = [] := by decide +kernel

/-- The property fails if a linter raises an exception: the streams stay what they were replaced with, so the traceback is not shown to the user. -/
theorem C147_exception_counterexample :
    (flake8 exWorld ⟨[], .raised⟩).1.out ≠ exWorld.out ∧ (traceback (flake8 exWorld ⟨[], .raised⟩).1 "Traceback".toList).text exWorld.err = [] ∧
    (traceback (pylint exWorld ⟨[], .raised⟩).1 "Traceback".toList).text exWorld.err = [] := by decide +kernel

/-- What pylint prints is shown with edulint's own output, as for `--list-msgs`. -/
theorem C147_print_counterexample : (pylint exWorld ⟨[.print "text".toList], .exit (some 0)⟩).1.text exWorld.out = "text".toList := by decide +kernel

end Verif.Streams
