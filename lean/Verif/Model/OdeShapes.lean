import Verif.Model.Api
import Verif.Model.SdeShapes

/-!
The fixed-step ODE solvers on tensors with shapes: /repo/torchdyn/numerics/solvers/ode.py and numerics/odeint.py with the
elementwise operations of torch, which broadcast. In `Verif.Model.Steppers` all tensors have the shape of the state.
-/

namespace Torchdyn

section

variable {K : Type} [Field K]

/-- `x + dt * k`, with `dt` zero-dimensional (ode.py:70, 84, 85). -/
def STensor.axpy (x : STensor K) (c : K) (k : STensor K) : Except PyErr (STensor K) := x.bin (· + ·) (k.map (c * ·))

/-- ode.py:68-71 `Euler.step` (`k1` is `None` in `_fixed_odeint`). -/
def eulerShapedStep (f : K → STensor K → Except PyErr (STensor K)) (x : STensor K) (t dt : K) :
    Except PyErr (StepOut (STensor K)) := do
  let k1 ← f t x
  let xSol ← x.axpy dt k1
  pure (.three none xSol none)

/-- ode.py:82-86 `Midpoint.step`. -/
def midpointShapedStep (f : K → STensor K → Except PyErr (STensor K)) (x : STensor K) (t dt : K) :
    Except PyErr (StepOut (STensor K)) := do
  let k1 ← f t x
  let xMid ← x.axpy (1 / 2 * dt) k1
  let k2 ← f (t + 1 / 2 * dt) xMid
  let xSol ← x.axpy dt k2
  pure (.three none xSol none)

/-- A row of the tableau with one entry, `a[0]` (_constants.py:23): a tensor of shape `(1,)`. -/
def STensor.row (c : K) : STensor K := ⟨[1], fun _ => c⟩

/-- ode.py:97-104 `RungeKutta4.step`. `a[0]` has shape `(1,)`; the other coefficients are zero-dimensional. -/
def rk4ShapedStep (tab : Tableau K) (f : K → STensor K → Except PyErr (STensor K)) (x : STensor K) (t dt : K) :
    Except PyErr (StepOut (STensor K)) := do
  let c := tab.c
  let a := tab.a
  let b := tab.bsol
  let k1 ← f t x
  let s2 ← (STensor.row (nth2 a 0 0)).bin (· * ·) k1
  let x2 ← x.axpy dt s2
  let k2 ← f (t + nth c 0 * dt) x2
  let s3 ← (k1.map (nth2 a 1 0 * ·)).bin (· + ·) (k2.map (nth2 a 1 1 * ·))
  let x3 ← x.axpy dt s3
  let k3 ← f (t + nth c 1 * dt) x3
  let s4 ← (k1.map (nth2 a 2 0 * ·)).bin (· + ·) (k2.map (nth2 a 2 1 * ·))
  let s4 ← s4.bin (· + ·) (k3.map (nth2 a 2 2 * ·))
  let x4 ← x.axpy dt s4
  let k4 ← f (t + nth c 2 * dt) x4
  let s5 ← (k1.map (nth b 0 * ·)).bin (· + ·) (k2.map (nth b 1 * ·))
  let s5 ← s5.bin (· + ·) (k3.map (nth b 2 * ·))
  let s5 ← s5.bin (· + ·) (k4.map (nth b 3 * ·))
  let xSol ← x.axpy dt s5
  pure (.three none xSol none)

/-- The explicit fixed-step methods with names `euler`, `midpoint`, `rk4` (ode.py:320-325). -/
inductive FixedMethod
  | euler | midpoint | rk4
  deriving DecidableEq

/-- The step of a method on tensors with shapes. -/
def FixedMethod.shapedStep (method : FixedMethod) (f : K → STensor K → Except PyErr (STensor K)) :
    STensor K → K → K → Except PyErr (StepOut (STensor K)) :=
  match method with
  | .euler => eulerShapedStep f
  | .midpoint => midpointShapedStep f
  | .rk4 => rk4ShapedStep (constructRk4 K) f

/-- The solver object of a method, on states of one shape (`Verif.Model.Steppers`). -/
def FixedMethod.solver (method : FixedMethod) (V A : Type) [AddCommGroup V] [Module K V] : Solver (Except PyErr) K V A :=
  match method with
  | .euler => eulerSolver (Except PyErr) K V A
  | .midpoint => midpointSolver (Except PyErr) K V A
  | .rk4 => rk4Solver (Except PyErr) K V A

/-- odeint.py:29-91 with a fixed-step solver on tensors with shapes: the direction (54-58), the loop and `torch.stack` of the
saved states (435-444; the list stands for the stacked tensor). -/
def odeintShaped [LinearOrder K] (method : FixedMethod) (f : K → STensor K → Except PyErr (STensor K)) (x : STensor K)
    (tSpan saveAt : List K) : Except PyErr (List K × List (STensor K)) := do
  let t1 ← getItem tSpan 1
  let t0 ← getItem tSpan 0
  let f' := if t1 < t0 then fun t x => (f (-t) x).map (STensor.map (- ·)) else f
  let ts := if t1 < t0 then tSpan.map (fun t => -t) else tSpan
  let (ts, sol) ← fixedOdeint torchIsclose (method.shapedStep f') x ts saveAt
  let sol ← stackTensors sol
  pure (ts, sol)

end

end Torchdyn
