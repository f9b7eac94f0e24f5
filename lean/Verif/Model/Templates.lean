import Verif.Model.Api

/-!
Solvers written by a user on top of the classes of the library: the templates
/repo/torchdyn/numerics/solvers/templates.py:12-64 and `SolverTemplate`, /repo/torchdyn/numerics/solvers/ode.py:27-58, and what
`odeint` does with the objects. `sync_device_dtype` does nothing on tensors of one device and one dtype and is left out.
-/

namespace Torchdyn

/-- The classes from which a solver can be derived: templates.py:12, 46 and 55, ode.py:27. -/
inductive SolverBase
  | diffEqSolver
  | baseExplicit
  | baseImplicit
  | solverTemplate
  deriving DecidableEq

variable {m : Type → Type} [Monad m] [MonadExcept PyErr m] {K V A : Type}

/-- The type of the method `step` (templates.py:42, ode.py:57). -/
abbrev StepMethod (m : Type → Type) (K V A : Type) := (K → V → m V) → V → K → K → Option V → A → m (StepOut V)

/-- A class derived from a template. Its constructor calls that of the template with the arguments it is given and then may assign
`self.stepping_class` (as ode.py:66 does); `step` is the overriding method, if there is one. -/
structure CustomClass (m : Type → Type) (K V A : Type) where
  base : SolverBase
  assigned : Option String
  step : Option (StepMethod m K V A)

/-- The object made; `steppingClass = none`: there is no such attribute. -/
structure CustomSolver (m : Type → Type) (K V A : Type) where
  order : Nat
  steppingClass : Option String
  safety : K
  minFactor : K
  maxFactor : K
  step : StepMethod m K V A

/-- The inherited method: `NotImplementedError` (templates.py:42-43), or a `pass` (ode.py:57-58), whose `None` cannot be unpacked by
the loops (odeint.py:374, 428: `TypeError`, at the point where the step was called). -/
def inheritedStep : SolverBase → StepMethod m K V A
  | .solverTemplate => fun _ _ _ _ _ _ => throw PyErr.typeError
  | _ => fun _ _ _ _ _ _ => throw PyErr.notImplementedError

/-- The constructors: templates.py:13-28 (`stepping_class` with default `"fixed"`), ode.py:28-34 (which has no such parameter:
`TypeError` if it is given), and templates.py:47-51, 56-60, where `super(BaseExplicit, DiffEqSolver)` is a `TypeError` because
`DiffEqSolver` is not a subclass of `BaseExplicit`. -/
def CustomClass.construct [Field K] (c : CustomClass m K V A) (order : Nat) (steppingClass : Option String := none)
    (minFactor : K := 1 / 5) (maxFactor : K := 10) (safety : K := 9 / 10) : Except PyErr (CustomSolver m K V A) :=
  let step := c.step.getD (inheritedStep c.base)
  match c.base with
  | .baseExplicit | .baseImplicit => .error .typeError
  | .diffEqSolver =>
    .ok ⟨order, some (c.assigned.getD (steppingClass.getD "fixed")), safety, minFactor, maxFactor, step⟩
  | .solverTemplate =>
    match steppingClass with
    | some _ => .error .typeError
    | none => .ok ⟨order, c.assigned, safety, minFactor, maxFactor, step⟩

/-- What a call of `odeint` returns. -/
inductive OdeintReturn (K V : Type)
  | pair (times : List K) (sol : List V)
  /-- python's `None` -/
  | nothing
  /-- not finished within the fuel -/
  | unfinished

open Classical in
/-- odeint.py:29-91 on a one-dimensional tensor `t_span`, for an object of a user's class: line 65 reads `stepping_class`, lines 81 and
86 compare it, and for any other value the function ends without a `return`. -/
noncomputable def odeintCustom {ι : Type} [Fintype ι] (fuel : Nat) (f : ℝ → (ι → ℝ) → m (ι → ℝ)) (x : ι → ℝ)
    (tSpan : List ℝ) (solver : CustomSolver m ℝ (ι → ℝ) A) (atol rtol : ℝ) (useInterp returnAllEval : Bool)
    (saveAt : List ℝ) (args : A) (sel : Finset ι) : m (OdeintReturn ℝ (ι → ℝ)) := do
  let (f', ts) ← odeintDirection f tSpan
  match solver.steppingClass with
  | none => throw PyErr.attributeError
  | some c =>
    let interp := if useInterp then some (fourthOrderDense (construct4th ℝ)) else none
    if c = "fixed" then
      let r ← fixedOdeint torchIsclose (fun x t dt => solver.step f' x t dt none args) x ts saveAt
      pure (.pair r.1 r.2)
    else if c = "adaptive" then
      let s : Solver m ℝ (ι → ℝ) A :=
        ⟨solver.order, true, false, solver.safety, solver.minFactor, solver.maxFactor, solver.step⟩
      let t ← getItem ts 0
      let k1 ← f' t x
      let dt ← initStep f k1 x t solver.order atol rtol
      let r ← adaptiveOdeint (odeintCfg f' s args atol rtol sel interp returnAllEval) fuel k1 x dt ts
      match r with
      | none => pure .unfinished
      | some r => pure (.pair r.1 r.2)
    else pure .nothing

end Torchdyn
