import Verif.Spec.Grid
import Verif.Model.MultipleShooting

/-!
Specification vocabulary for the parallel-in-time solvers. It mentions the interface of solver classes
(`SolverFamily`, i.e. `step`) but none of the helpers of the shooting loops.
-/

namespace Spec

open Torchdyn

/-- The state at the end of the grid `ts`, applying the one-step map `φ` along it from `x`. -/
def propagate {K V : Type} [Sub K] (φ : V → K → K → V) : V → List K → V
  | x, [] => x
  | x, [_] => x
  | x, t :: t' :: ts => propagate φ (φ x t (t' - t)) (t' :: ts)

/-- `n` equally spaced points from `a` to `b`. -/
def uniformGrid {K : Type} [Field K] (a b : K) (n : ℕ) : List K :=
  (List.range n).map (fun i : ℕ => a + (i : K) * ((b - a) / ((n : K) - 1)))

/-- On the field `f`, the solver class `S` is the one-step map `φ`, returned as a 3-tuple, and treats
the rows of a stack independently. -/
structure Rowwise {K V A : Type} [Field K] [AddCommGroup V] [Module K V]
    (S : SolverFamily (Except PyErr) K A) (args : A) (f : K → V → V) (φ : V → K → K → V) : Prop where
  single : ∀ x t dt, ∃ k e,
    (S V).step (fun t x => .ok (f t x)) x t dt none args = .ok (.three k (φ x t dt) e)
  stack : ∀ (n : ℕ) (X : Fin n → V) t dt, ∃ k e,
    (S (Fin n → V)).step (fun t X => .ok (fun r => f t (X r))) X t dt none args =
      .ok (.three k (fun r => φ (X r) t dt) e)

/-- The sequential solution: `x, G x, G (G x), ...`, `n` entries. -/
def sequential {V : Type} (G : V → V) (x : V) (n : ℕ) : List V := (List.range n).map (fun m => G^[m] x)

/-- The field acting on each row of a stack. -/
def rowField {K V : Type} (f : K → V → V) (k : ℕ) : K → (Fin k → V) → Except PyErr (Fin k → V) :=
  fun t X => .ok (fun r => f t (X r))

end Spec
