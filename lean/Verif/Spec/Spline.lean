import Mathlib.Analysis.Normed.Module.Basic

/-!
Specification of the natural cubic spline through given points.
-/

namespace Spec

/-- `s` is the natural cubic spline with knots `ts` and values `xs`: on the interval from knot `i` to knot `i + 1` it is
`xᵢ + (r - tᵢ) bᵢ + (r - tᵢ)² cᵢ + (r - tᵢ)³ dᵢ`, it takes the value `xᵢ₊₁` at `tᵢ₊₁`, first and second derivative are
continuous at the inner knots, and the second derivative vanishes at both ends. (`b` and `c` at the last knot stand for the
derivatives there.) -/
def NaturalSpline {X : Type} [NormedAddCommGroup X] [NormedSpace ℝ X] (ts : List ℝ) (xs : List X) (s : ℝ → X) : Prop :=
  ∃ b c d : ℕ → X, c 0 = 0 ∧ c (ts.length - 1) = 0 ∧
    ∀ (i : ℕ) (t t' : ℝ) (x x' : X), ts[i]? = some t → ts[i + 1]? = some t' → xs[i]? = some x → xs[i + 1]? = some x' →
      (∀ r, t ≤ r → r ≤ t' → s r = x + (r - t) • b i + (r - t) ^ 2 • c i + (r - t) ^ 3 • d i) ∧
      x' = x + (t' - t) • b i + (t' - t) ^ 2 • c i + (t' - t) ^ 3 • d i ∧
      b (i + 1) = b i + (2 * (t' - t)) • c i + (3 * (t' - t) ^ 2) • d i ∧
      c (i + 1) = c i + (3 * (t' - t)) • d i

end Spec
