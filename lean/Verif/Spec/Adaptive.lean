import Mathlib.Analysis.SpecialFunctions.Pow.Real
import Mathlib.Logic.Relation
import Verif.Model.Steppers

/-!
Specification vocabulary for adaptive integration. It mentions the solver interface (`Solver.step`,
the public method a user calls or implements) but none of the helpers of the integration loop.
-/

namespace Spec

open Torchdyn

/-- The norm in which a step is judged: root mean square over the entries in `sel` of
`e_i / (atol + rtol * max(|x_i|, |x'_i|))`. -/
noncomputable def errorNorm {ι : Type} (sel : Finset ι) (atol rtol : ℝ) (x x' e : ι → ℝ) : ℝ :=
  Real.sqrt ((∑ i ∈ sel, (e i / (atol + rtol * max |x i| |x' i|)) ^ 2) / (sel.card : ℝ))

/-- A point of a trajectory: a time and a state. -/
abbrev Point (ι : Type) := ℝ × (ι → ℝ)

/-- `(t', x')` is reached from `(t, x)` by one step of `solver` on the field `f`, forward in time,
started afresh at `(t, x)`, whose error estimate is within the tolerances. -/
def AcceptedStep {ι A : Type} (solver : Solver (Except PyErr) ℝ (ι → ℝ) A) (args : A)
    (f : ℝ → (ι → ℝ) → (ι → ℝ)) (sel : Finset ι) (atol rtol : ℝ) (p q : Point ι) : Prop :=
  p.1 < q.1 ∧ ∃ k e st,
    solver.step (fun t x => .ok (f t x)) p.2 p.1 (q.1 - p.1) none args = .ok (.four k q.2 e st) ∧
    errorNorm sel atol rtol p.2 q.2 e ≤ 1

/-- `q` is reached from `p` by finitely many consecutive accepted steps. -/
def Reached {ι A : Type} (solver : Solver (Except PyErr) ℝ (ι → ℝ) A) (args : A)
    (f : ℝ → (ι → ℝ) → (ι → ℝ)) (sel : Finset ι) (atol rtol : ℝ) : Point ι → Point ι → Prop :=
  Relation.ReflTransGen (AcceptedStep solver args f sel atol rtol)

/-- A solver object usable with the adaptive loop, for the argument `args`: its step returns a
4-tuple `(k, x', e, stages)` on every field, passing `k1 = f(t, x)` does not change it, and `k` is the
derivative at the new point (first-same-as-last). -/
structure FsalSolver {ι A : Type} (solver : Solver (Except PyErr) ℝ (ι → ℝ) A) (args : A) :
    Prop where
  adaptive : solver.adaptive = true
  safety_pos : 0 < solver.safety
  min_pos : 0 < solver.minFactor
  max_pos : 0 < solver.maxFactor
  step_ok : ∀ (f : ℝ → (ι → ℝ) → (ι → ℝ)) x t dt k1, ∃ k x' e st,
    solver.step (fun t x => .ok (f t x)) x t dt k1 args = .ok (.four k x' e st)
  first_stage : ∀ (f : ℝ → (ι → ℝ) → (ι → ℝ)) x t dt,
    solver.step (fun t x => .ok (f t x)) x t dt (some (f t x)) args =
      solver.step (fun t x => .ok (f t x)) x t dt none args
  fsal : ∀ (f : ℝ → (ι → ℝ) → (ι → ℝ)) x t dt k1 k x' e st,
    solver.step (fun t x => .ok (f t x)) x t dt k1 args = .ok (.four k x' e st) → k = f (t + dt) x'

end Spec
