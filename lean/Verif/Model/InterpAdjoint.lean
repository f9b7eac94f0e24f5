import Verif.Model.Sensitivity

/-!
The interpolated adjoint, /repo/torchdyn/numerics/sensitivity.py:103-161.

The spline (`natural_cubic_coeffs`, `CubicSpline` of torchcde) is a parameter: a function that takes the times and states
returned by the forward pass and returns a curve or raises. The field, its vector-Jacobian products and the pairing are
those of `AdjointField` (Model/Sensitivity.lean).
-/

namespace Torchdyn

section interp

variable {m : Type → Type} [Monad m] [MonadExcept PyErr m] {K X L M : Type} [Field K]
  [AddCommGroup L] [AddCommGroup M]

/-- sensitivity.py:130-147 `adjoint_dynamics` of the interpolated adjoint on the unpacked state `(λ, μ)`; the state of the
field is read off the spline. See `packInterp` for the flat vector. -/
def interpDynamics (F : AdjointField K X L M) (curve : K → X) (t : K) (A : L × M) : L × M :=
  let x := curve t
  let lam := A.1
  let dlam := F.vjpX t x (-lam)
  let dlam := match F.lossGrad with
    | some dg => dlam - dg t x
    | none => dlam
  (dlam, F.vjpP t x (-lam))

/-- sensitivity.py:151-155, the loop `for i in range(len(t_span) - 1, 0, -1)`; `i + 1` is the Python index. The times are
those of `t_span`; the gradients are read from the rows of `grad_output[-1]`, which are those of `t_sol`. -/
def interpLoop (solve : (K → L × M → m (L × M)) → L × M → List K → m (List K × List (L × M)))
    (F : AdjointField K X L M) (curve : K → X) (tSpan : List K) (gradX : List L) : (i : Nat) → L × M → m (L × M)
  | 0, A => pure A
  | i + 1, A => do
    let tHi ← getItem tSpan (i + 1)
    let tLo ← getItem tSpan i
    let (_, As) ← solve (fun t A => pure (interpDynamics F curve t A)) A [tHi, tLo]
    let A ← getLastItem As
    let gx ← getItem gradX i
    interpLoop solve F curve tSpan gradX i (A.1 + gx, A.2)

/-- sensitivity.py:115-159 `backward` of the interpolated adjoint: the gradients with respect to parameters and initial
state. `solve` is `odeint(·, ·, ·, solver, atol, rtol)` with the forward solver. -/
def interpBackward (solve : (K → L × M → m (L × M)) → L × M → List K → m (List K × List (L × M)))
    (spline : List K → List X → m (K → X)) (F : AdjointField K X L M) (tSpan tSol : List K) (sol : List X)
    (gradX : List L) : m (M × L) := do
  let _ ← getLastItem sol
  let lamT ← getLastItem gradX
  let curve ← spline tSol sol
  let A ← interpLoop solve F curve tSpan gradX (tSpan.length - 1) (lamT, 0)
  pure (A.2, A.1)

end interp

end Torchdyn
