import Verif.Model.Tableau
import Mathlib.Algebra.Module.Defs
import Mathlib.Algebra.Module.NatInt

/-!
Interpolation: /repo/torchdyn/numerics/interpolators.py.
-/

namespace Torchdyn

variable {K V : Type} [Field K] [AddCommGroup V] [Module K V]

/-- interpolators.py:33-36: the loop of `Interpolator.evaluate` over `coefs[2:]`, with accumulator
`result` and running power `theta_power`. -/
def interpEvalLoop (theta : K) : List V → K → V → V
  | [], _, result => result
  | coef :: rest, thetaPower, result =>
    let thetaPower := thetaPower * theta
    interpEvalLoop theta rest thetaPower (result + thetaPower • coef)

/-- interpolators.py:29-37 `Interpolator.evaluate`. `coefs[0]`, `coefs[1]` are in range for the
interpolants fitted by the code (5 coefficients); shorter lists read as `0`. -/
def interpEvaluate (coefs : List V) (t0 t1 t : K) : V :=
  let theta := (t - t0) / (t1 - t0)
  let result := coefs.getD 0 0 + theta • coefs.getD 1 0
  interpEvalLoop theta (coefs.drop 2) theta result

/-- interpolators.py:57-63 `FourthOrder.fit`. -/
def fourthOrderFit (dt : K) (f0 f1 x0 x1 xMid : V) : List V :=
  let c1 := (2 * dt) • (f1 - f0) - (8 : K) • (x1 + x0) + (16 : K) • xMid
  let c2 := dt • ((5 : K) • f0 - (3 : K) • f1) + (18 : K) • x0 + (14 : K) • x1 - (32 : K) • xMid
  let c3 := dt • (f1 - (4 : K) • f0) - (11 : K) • x0 - (5 : K) • x1 + (16 : K) • xMid
  let c4 := dt • f0
  let c5 := x0
  [c5, c4, c3, c2, c1]

/-- odeint.py:381 `x + dt * sum([interpolator.bmid[i] * stages[i] for i in range(len(stages))])`.
`bmid` and `stages` have equal length (7) for `dopri5`; a shorter `bmid` (Python `IndexError`)
reads as `0`. -/
def interpMid (bmid : List K) (x : V) (dt : K) (stages : List V) : V :=
  x + dt • ((List.range stages.length).map (fun i => nth bmid i • stages.getD i 0)).sum

/-- The dense output used by `_adaptive_odeint` with the `'4th'` interpolator (odeint.py:380-384):
the mid point, the fit and the evaluation at `tq`, for a step from `(t, x)` with derivative `k1`
to `(t+dt, xNew)` with derivative `fNew`. -/
def fourthOrderDense (bmid : List K) (t dt : K) (k1 fNew x xNew : V) (stages : List V) (tq : K) : V :=
  let t0 := t
  let t1 := t + dt
  let xMid := interpMid bmid x dt stages
  let coefs := fourthOrderFit dt k1 fNew x xNew xMid
  interpEvaluate coefs t0 t1 tq

end Torchdyn
