import Mathlib.Probability.Distributions.Exponential
import Mathlib.Probability.ProductMeasure

/-!
The law of the thresholds of stochastic events: independent, exponentially distributed with mean one
(`torch.distributions.Exponential(1)`).
-/

namespace Spec

open MeasureTheory ProbabilityTheory

/-- Infinitely many independent samples of `Exponential(1)`. -/
noncomputable def expThresholds : Measure (ℕ → ℝ) := Measure.infinitePi (fun _ => expMeasure 1)

end Spec
