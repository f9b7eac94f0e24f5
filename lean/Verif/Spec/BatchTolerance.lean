import Mathlib.Data.Real.Basic
import Mathlib.Data.Fin.Basic
import Mathlib.Algebra.Order.Group.Unbundled.Abs

/-!
Vocabulary for batches: `n` independent systems that are integrated in one call.
-/

namespace Spec

/-- The field of a batch of independent systems: sample `b` follows `g b`. -/
def batchField {β κ : Type} (g : β → ℝ → (κ → ℝ) → (κ → ℝ)) : ℝ → (β × κ → ℝ) → (β × κ → ℝ) :=
  fun t y p => g p.1 t (fun i => y (p.1, i)) p.2

/-- One sample of a batch. -/
def sample {β κ : Type} (b : β) (y : β × κ → ℝ) : κ → ℝ := fun i => y (b, i)

/-- A batch in which sample `0` follows `g` and `N` other samples are at rest. -/
def withResting {κ : Type} (N : ℕ) (g : ℝ → (κ → ℝ) → (κ → ℝ)) (b : Fin (N + 1)) : ℝ → (κ → ℝ) → (κ → ℝ) :=
  if b = 0 then g else fun _ _ _ => 0

/-- The times `a`, `a + 0.000001`, `a + 0.000011`, …, `a + 0.111111`, `a + 1`. -/
noncomputable def decadeTime (a : ℝ) (k : ℕ) : ℝ := if k ≤ 6 then a + (10 ^ k - 1) / (9 * 10 ^ 6) else a + 1

/-- `ẋ = C * t⁵`, a bounded field (constant outside `[-1, 1]`). -/
noncomputable def quintic (C : ℝ) : ℝ → (Unit → ℝ) → (Unit → ℝ) := fun t _ _ => C * (min |t| 1) ^ 5

end Spec
