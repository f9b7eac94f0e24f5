import Verif.Model.MultipleShooting
import Mathlib.Algebra.BigOperators.Pi

/-!
`ParallelImplicitEuler`, /repo/torchdyn/numerics/solvers/ode.py:284-317, and the part of
/repo/torchdyn/numerics/odeint.py:153-179 `odeint_mshooting` that calls it; `_shifted_fixed_odeint`,
odeint.py:448-467.

A row of the tensor `B` is an element of `ι → K`, where `ι` runs over the entries of a batch of states (the code
indexes `dt[1:, None, None]`, so rows are matrices; rows with another number of dimensions, for which the
product broadcasts differently, are not modelled). The vector field acts row by row: `f(0., B[1:])` is the list of
the values at the rows. The optimiser `torch.optim.LBFGS` is a parameter: it is given the closure and the start.
-/

namespace Torchdyn

section

variable {m : Type → Type} [Monad m] [MonadExcept PyErr m] {K A ι : Type} [Field K] [Fintype ι]

/-- `torch.sum(v ** 2)`. -/
def sumSq (v : ι → K) : K := ∑ i, v i ^ 2

/-- ode.py:296 `t_span[1:] - t_span[:-1]`. -/
def gaps (tSpan : List K) : List K := List.zipWith (fun a b => a - b) (tSpan.drop 1) tSpan.dropLast

/-- ode.py:294-300 `_residual`. The slices `B[2:]`, `B[1:-1]`, `dt[1:]` and `F[1:]` are combined elementwise: their
lengths must agree (`RuntimeError`; broadcasting of a slice of length one against a longer one is not modelled and
counts as a mismatch). -/
def pieResidual (f : K → (ι → K) → m (ι → K)) (x : ι → K) (B : List (ι → K)) (tSpan : List K) : m K := do
  let dt := gaps tSpan
  let F ← (B.drop 1).mapM (f 0)
  if (dt.drop 1).length ≠ (F.drop 1).length then throw PyErr.runtimeError
  let residual := (List.zipWith (fun p q => sumSq (p.1 - p.2 - q.1 • q.2))
    ((B.drop 2).zip (B.drop 1)) ((dt.drop 1).zip (F.drop 1))).sum
  let b1 ← getItem B 1
  let dt0 ← getItem dt 0
  let f0 ← getItem F 0
  pure (residual + sumSq (b1 - x - dt0 • f0))

/-- ode.py:303-317 `root_solve`: the optimiser minimises the residual from a clone of `B`. The arguments
`odeint_func`, `fine_steps` and `maxiter` are not used. -/
def pieRootSolve (minimise : (List (ι → K) → m K) → List (ι → K) → m (List (ι → K)))
    (f : K → (ι → K) → m (ι → K)) (x : ι → K) (tSpan : List K) (B : List (ι → K)) : m (List (ι → K)) :=
  minimise (fun B => pieResidual f x B tSpan) B

/-- odeint.py:153-179 `odeint_mshooting` with `ParallelImplicitEuler`: the first guess is the coarse solution
(`coarse_method='euler'`) unless `B0` is given; `sync_device_dtype` is the identity (ode.py:291-292). -/
def odeintPie [LinearOrder K] (minimise : (List (ι → K) → m K) → List (ι → K) → m (List (ι → K)))
    (f : K → (ι → K) → m (ι → K)) (x : ι → K) (tSpan : List K) (B0 : Option (List (ι → K))) (args : A) :
    m (List K × List (ι → K)) := do
  let B0 ← match B0 with
    | some B0 => pure B0
    | none => do
      let (_, B0) ← odeintFixed f x tSpan (eulerSolver m K (ι → K) A) [] args
      pure B0
  let B ← pieRootSolve minimise f x tSpan B0
  pure (tSpan, B)

end

section shifted

variable {m : Type → Type} [Monad m] [MonadExcept PyErr m] {K V : Type} [Field K] [LinearOrder K]

/-- odeint.py:448-467 `_shifted_fixed_odeint`, one time span per segment. The loop body calls `solver.step`, but no
variable `solver` is in scope (the function has no such parameter and the module no such global): `NameError`. When no
segment remains to be integrated, `torch.stack` of an empty list is a `RuntimeError`. The masking of `x` in the loop
body precedes the failing line and is lost with the exception. Spans with fewer than two points raise `IndexError`. -/
def shiftedFixedOdeint (f : List K → V → m V) (x : V) (tSpans : List (List K)) : m (List V) := do
  let t ← tSpans.mapM (fun s => getItem s 0)
  let T ← tSpans.mapM (fun s => getLastItem s)
  let _ ← tSpans.mapM (fun s => getItem s 1)
  let _ ← f t x
  if (List.zipWith (fun a b => !decide (|a - b| ≤ 1 / 10 ^ 6)) t T).any id then throw PyErr.nameError
  else throw PyErr.runtimeError

end shifted

end Torchdyn
