import Verif.Model.Api
import Verif.Model.ImplicitEuler
import Mathlib.Analysis.Calculus.FDeriv.Prod
import Mathlib.Analysis.Normed.Operator.Prod

/-!
Back-propagation through the solver: `sensitivity='autograd'`, /repo/torchdyn/core/problems.py:142-152.

A tensor in an autograd graph is modelled by its value together with its derivative with respect to the inputs `Q` (initial state
and parameters) as recorded by the graph: `backward` applies the transpose of this derivative to the gradient of the loss. Sums and
multiples of tensors act on both parts, so that the code of the solvers is run as it is on the module of such pairs. Times and step
sizes are constants, as in the fixed-step loop. Reverse accumulation itself is not modelled.
-/

namespace Torchdyn

/-- A tensor and its derivative with respect to the inputs, as autograd records it. -/
abbrev Traced (Q V : Type) [NormedAddCommGroup Q] [NormedSpace ℝ Q] [NormedAddCommGroup V] [NormedSpace ℝ V] : Type :=
  V × (Q →L[ℝ] V)

section

variable {Q V : Type} [NormedAddCommGroup Q] [NormedSpace ℝ Q] [NormedAddCommGroup V] [NormedSpace ℝ V]

/-- A new leaf of the graph: `nn.Parameter(data=x)` (ode.py:196). It does not depend on the inputs. -/
def leaf (x : V) : Traced Q V := (x, 0)

/-- A vector field with parameters in a graph: autograd applies the chain rule. That autograd differentiates the field correctly is
part of the model. -/
noncomputable def tracedField (f : Q → ℝ → V → V) (q : Q) (t : ℝ) (y : Traced Q V) : Traced Q V :=
  (f q t y.1, (fderiv ℝ (fun p : Q × V => f p.1 t p.2) (q, y.1)).comp ((ContinuousLinearMap.id ℝ Q).prod y.2))

end

/-- ode.py:181-205 `ImplicitEuler` in a graph: the result of the step is the parameter `x_sol` created from the data of `x`
(line 196), whose data LBFGS changes in place; nothing records how it depends on `x` or on the field. LBFGS is an arbitrary
procedure, as in `implicitEulerSolver`. -/
noncomputable def tracedImplicitEuler {Q ι A : Type} [NormedAddCommGroup Q] [NormedSpace ℝ Q] [Fintype ι]
    (minimise : ((ι → ℝ) → Except PyErr ℝ) → (ι → ℝ) → Except PyErr (ι → ℝ)) :
    Solver (Except PyErr) ℝ (Traced Q (ι → ℝ)) A where
  order := 1
  adaptive := false
  isTsit5 := false
  safety := 9 / 10
  minFactor := 1 / 5
  maxFactor := 10
  step f x t dt _ _ := do
    let xSol ← minimise (ieulerResidual (fun t z => do let r ← f t (leaf z); pure r.1) x.1 t dt) x.1
    pure (.three none (leaf xSol) none)

/-- problems.py:142-152, `sensitivity='autograd'`, with a fixed-step solver: `odeint` on the field, inside the graph. -/
noncomputable def autogradOdeint {Q V A : Type} [NormedAddCommGroup Q] [NormedSpace ℝ Q] [NormedAddCommGroup V] [NormedSpace ℝ V]
    (f : Q → ℝ → V → V) (q : Q) (x : Traced Q V) (tSpan : List ℝ) (solver : Solver (Except PyErr) ℝ (Traced Q V) A)
    (saveAt : List ℝ) (args : A) : Except PyErr (List ℝ × List (Traced Q V)) :=
  odeintFixed (pureField (tracedField f q)) x tSpan solver saveAt args

end Torchdyn
