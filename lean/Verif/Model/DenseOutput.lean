import Verif.Model.Py

/-!
`dense_output`: /repo/torchdyn/numerics/utils.py:66-75. The package torchcde is not part of /repo: it is a parameter, with the
signatures `hermite_cubic_coefficients_with_backward_differences(x, t=None)` and `CubicSpline(coeffs, t=None)`.
-/

namespace Torchdyn

/-- Tensors `T`, splines `S`, and the functions of torch and torchcde that `dense_output` calls. -/
structure SplineLib (T S : Type) where
  ndim : T → Nat
  /-- `x.to(y)`: type and device of `y` -/
  toLike : T → T → T
  /-- `x.permute(1, 0, 2)` of a tensor with three dimensions -/
  permute : T → T
  /-- `hermite_cubic_coefficients_with_backward_differences(x, t)` -/
  hermite : (x t : T) → Except PyErr T
  /-- `CubicSpline(coeffs, t)` -/
  cubicSpline : (coeffs t : T) → Except PyErr S
  evaluate : S → T → Except PyErr T
  /-- `torch.stack` -/
  stack : List T → Except PyErr T

/-- utils.py:66-75 `dense_output(sol, t_sol, t_eval, return_spline)`, the arguments of the two torchcde calls in the order in which
they are written. `t_eval` is the list of its entries. `permute(1, 0, 2)` raises `RuntimeError` unless there are three dimensions. -/
def denseOutput {T S : Type} (lib : SplineLib T S) (sol tSol : T) (tEval : List T) (returnSpline : Bool) :
    Except PyErr (T × Option S) := do
  let tSol := lib.toLike tSol sol
  let solT ← if lib.ndim sol = 3 then pure (lib.permute sol) else throw .runtimeError
  let coeff ← lib.hermite tSol solT
  let spline ← lib.cubicSpline tSol coeff
  let values ← tEval.mapM (lib.evaluate spline)
  let solEval ← lib.stack values
  pure (solEval, if returnSpline then some spline else none)

end Torchdyn
