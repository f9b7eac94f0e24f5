import Verif.Model.Steppers

/-!
`ImplicitEuler` of /repo/torchdyn/numerics/solvers/ode.py as a solver for `odeint`.
-/

namespace Torchdyn

variable {ι : Type} [Fintype ι] {K A : Type} [Field K]

/-- ode.py:189-192 `_residual` with a vector field that may raise. -/
def ieulerResidual (f : K → (ι → K) → Except PyErr (ι → K)) (x : ι → K) (t dt : K) (xSol : ι → K) : Except PyErr K := do
  let fSol ← f t xSol
  pure (∑ i, (xSol i - x i - dt * fSol i) ^ 2)

/-- ode.py:181-205 `ImplicitEuler`. LBFGS is an arbitrary procedure `minimise` that receives the closure and the starting
point (a clone of `x`) and returns the final value of the parameter. That the result is a new leaf of the autograd graph is
modelled by `tracedImplicitEuler`. Constants from templates.py:13-28. -/
def implicitEulerSolver (minimise : ((ι → K) → Except PyErr K) → (ι → K) → Except PyErr (ι → K)) :
    Solver (Except PyErr) K (ι → K) A where
  order := 1
  adaptive := false
  isTsit5 := false
  safety := 9 / 10
  minFactor := 1 / 5
  maxFactor := 10
  step f x t dt _ _ := do
    let xSol ← minimise (ieulerResidual f x t dt) x
    pure (.three none xSol none)

end Torchdyn
