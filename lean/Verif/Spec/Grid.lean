import Mathlib.Algebra.Order.Field.Basic
import Mathlib.Algebra.Order.Group.Abs

/-!
Specification vocabulary for integration over a grid of time points.
-/

namespace Spec

/-- The states obtained by applying the one-step map `φ : state → time → step size → state` along the
grid `ts`: one state per grid point, each next one a step of `φ` over the gap to the next point. -/
def gridStates {K V : Type} [Sub K] (φ : V → K → K → V) : V → List K → List V
  | _, [] => []
  | x, [_] => [x]
  | x, t :: t' :: ts => x :: gridStates φ (φ x t (t' - t)) (t' :: ts)

/-- `sol` is a numerical trajectory of the one-step map `φ` on the grid `ts` started at `x`. -/
structure IsTrajectory {K V : Type} [Sub K] (φ : V → K → K → V) (x : V) (ts : List K)
    (sol : List V) : Prop where
  /-- one state per time point -/
  length_eq : sol.length = ts.length
  /-- the first state is the initial condition -/
  start : sol[0]? = some x
  /-- each state is one step from its predecessor, over exactly the gap between the two times -/
  next : ∀ (k : ℕ) (t t' : K) (y : V), ts[k]? = some t → ts[k + 1]? = some t' → sol[k]? = some y →
    sol[k + 1]? = some (φ y t (t' - t))

/-- Two times are indistinguishable for `torch.isclose` (default tolerances), `b` being the
reference. -/
def Close {K : Type} [Field K] [LinearOrder K] (a b : K) : Prop :=
  |a - b| ≤ 1 / 10 ^ 8 + 1 / 10 ^ 5 * |b|

/-- All points of the list can be told apart by `torch.isclose`. -/
def Separated {K : Type} [Field K] [LinearOrder K] (ts : List K) : Prop :=
  ts.Pairwise (fun a b => ¬ Close a b ∧ ¬ Close b a)

end Spec
