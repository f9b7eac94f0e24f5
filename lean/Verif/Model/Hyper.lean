import Verif.Model.Steppers

/-!
The hypersolver objects of /repo/torchdyn/numerics/solvers/hyper.py as solvers for `odeint`.
-/

namespace Torchdyn

variable (m : Type → Type) [Monad m] (K V A : Type) [Field K] [AddCommGroup V] [Module K V]

/-- hyper.py:17-26 `HyperEuler`: attributes of `Euler` (ode.py:61-71), its own `step`. -/
def hyperEulerSolver (hypernet : K → V → m V) : Solver m K V A :=
  { eulerSolver m K V A with step := hyperEulerStep hypernet }
/-- hyper.py:28-37 `HyperMidpoint`. -/
def hyperMidpointSolver (hypernet : K → V → m V) : Solver m K V A :=
  { midpointSolver m K V A with step := hyperMidpointStep hypernet }
/-- hyper.py:39-47 `HyperRungeKutta4`. -/
def hyperRk4Solver (hypernet : K → V → m V) : Solver m K V A :=
  { rk4Solver m K V A with step := hyperRk4Step hypernet }

end Torchdyn
