import Mathlib.Analysis.Calculus.Deriv.Basic
import Mathlib.Analysis.Normed.Group.Constructions

/-!
Specification vocabulary for exact solutions of autonomous differential equations.
-/

namespace Spec

/-- `x` is an exact solution of `x' = F x` on `[a, b]`. -/
def SolvesOn {V : Type} [NormedAddCommGroup V] [NormedSpace ℝ V] (F : V → V) (a b : ℝ) (x : ℝ → V) : Prop :=
  ∀ t ∈ Set.Icc a b, HasDerivWithinAt x (F (x t)) (Set.Icc a b) t

end Spec
