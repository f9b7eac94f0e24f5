import Verif.Spec.Hybrid

/-!
A ball above a floor at height zero, under gravity. States have two entries: `false` is the height, `true` the velocity.
-/

namespace Spec

open Torchdyn

/-- The vector field a user integrates: `height' = velocity`, `velocity' = -g`. -/
def ballField (g : ℝ) : ℝ → (Bool → ℝ) → (Bool → ℝ) := fun _ x i => if i then -g else x true

/-- Where the ball is after the time `s` when it meets no floor. -/
noncomputable def ballFlow (g s : ℝ) (x : Bool → ℝ) : Bool → ℝ :=
  fun i => if i then x true - g * s else x false + x true * s - g * s ^ 2 / 2

/-- The rebound: the velocity is reversed and multiplied by `c`. -/
def rebound (c : ℝ) (x : Bool → ℝ) : Bool → ℝ := fun i => if i then -(c * x true) else x false

open Classical in
/-- The callback a user writes: the ball is at or below the floor and does not rise. -/
noncomputable def bounceCallback (c : ℝ) : EventCallback ℝ (Bool → ℝ) where
  checkEvent := fun _ x => decide (x false ≤ 0 ∧ x true ≤ 0)
  jumpMap := fun _ x => rebound c x

/-- The energy per mass. -/
noncomputable def ballEnergy (g : ℝ) (x : Bool → ℝ) : ℝ := x true ^ 2 / 2 + g * x false

/-- The outputs after the point `p`, with `n` bounces: points above the floor on the exact parabola from the previous output, and
pairs that record a bounce at such a point `b`. At a bounce, the ball would reach the floor within the time `tol`. -/
inductive BallRun (g c tol : ℝ) : ℕ → Point Bool → List (Point Bool) → Prop
  | nil (p) : BallRun g c tol 0 p []
  | fall {n p q l} : p.1 ≤ q.1 → q.2 = ballFlow g (q.1 - p.1) p.2 → 0 < q.2 false → BallRun g c tol n q l →
      BallRun g c tol n p (q :: l)
  | bounce {n p b l} (s : ℝ) : p.1 ≤ b.1 → b.2 = ballFlow g (b.1 - p.1) p.2 → 0 < b.2 false → 0 ≤ s → s ≤ tol →
      ballFlow g s b.2 false ≤ 0 → ballFlow g s b.2 true ≤ 0 → BallRun g c tol n (b.1, rebound c b.2) l →
      BallRun g c tol (n + 1) p (b :: (b.1, rebound c b.2) :: l)

end Spec
