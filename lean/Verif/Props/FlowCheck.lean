import Verif.Model.FlowCheck
import Verif.Lemmas.FlowCheck
import Verif.Props.Flow

/-! Properties of `Verif/Model/FlowCheck.lean`. -/

namespace Verif.Flow

/-! ### C74 -/

/-- **C74**, modules: building the graph raises no exception, and the graph is that of `Verif/Model/Flow.lean`. -/
theorem C74_module (p : Body) (h : p.full = true) : moduleGraphE p = .ok (moduleGraph p) := moduleGraphE_ok p h

/-- **C74**, functions. -/
theorem C74_function (args : Nat) (p : Body) (h : p.full = true) : functionGraphE args p = .ok (functionGraph args p) :=
  functionGraphE_ok args p h

/-- **C74**, classes. -/
theorem C74_class (p : Body) (h : p.full = true) : classGraphE p = .ok (classGraph p) := classGraphE_ok p h

-- The clause begins with `while`, so its block is merged with that of the test.
example :
    let p := seq [.try_ (.loop 0 (seq [.simple 1]) .nil) .nil
      (.cons ["E".toList] none (seq [.loop 2 (seq [.jump .brk 3]) .nil]) (.cons [] (some 4) (seq [.jump (.raise none) 5]) .nil))
      (seq [.simple 6]) .nil]
    p.full = true ∧ ∃ g, moduleGraphE p = .ok g := by
  refine ⟨by decide, _, C74_module _ (by decide)⟩

-- Not a program: a clause without a body.
example : moduleGraphE (seq [.try_ (.simple 0) .nil (.cons [] none .nil .nil) .nil .nil]) = .error .indexError := by
  rfl

-- Merging a block twice raises.
example : ((⟨Graph.init, 0, [1, 0]⟩ : Work).linkOrMerge 0 1).bind (fun w => w.linkOrMerge 0 1) = .error .keyError := by
  rfl

end Verif.Flow
