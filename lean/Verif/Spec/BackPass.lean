import Mathlib.Data.Real.Basic

/-!
Vocabulary for gradients computed by a backward pass that steps from one output time to the previous one.
-/

namespace Spec

/-- A backward pass from the time with index `i` down to the first one: with `ψ s τ d` the step of size `d` from the state `s`
in reversed time `τ = -t`, each interval is crossed in one step, and then `jump` adds the cotangent of the output at its lower
end. No result if a time or a cotangent is missing. -/
def backPass {S G : Type} (ψ : S → ℝ → ℝ → S) (jump : S → G → S) (ts : List ℝ) (gs : List G) : ℕ → S → Option S
  | 0, s => some s
  | i + 1, s =>
    match ts[i + 1]?, ts[i]?, gs[i]? with
    | some tHi, some tLo, some g => backPass ψ jump ts gs i (jump (ψ s (-tHi) (tHi - tLo)) g)
    | _, _, _ => none

/-- Two intervals, with a step that records its size and a jump that adds. -/
example : backPass (fun s _ d => s + d) (fun s g : ℝ => s + g) [0, 1, 3] [10, 20, 0] 2 5 = some (5 + (3 - 1) + 20 + (1 - 0) + 10) :=
  rfl

end Spec
