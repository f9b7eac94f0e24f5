import Mathlib.Algebra.Module.LinearMap.End
import Mathlib.Algebra.BigOperators.Fin
import Mathlib.Data.Nat.Factorial.Basic
import Mathlib.Algebra.Order.Field.Basic

/-!
Specification vocabulary for one-step methods, independent of the model of the code.
-/

namespace Spec

section

variable {K V : Type} [Field K] [AddCommGroup V] [Module K V]

/-- The Taylor polynomial of degree `p` of `exp (h L) x`, the flow of `x' = L x`. -/
def expTaylor (p : ℕ) (L : V →ₗ[K] V) (h : K) (x : V) : V :=
  ∑ j ∈ Finset.range (p + 1), (h ^ j / (j.factorial : K)) • (L ^ j) x

/-- The vector polynomial `c 0 + t c 1 + ... + t^d c d`. -/
def polyField (d : ℕ) (c : ℕ → V) (t : K) : V :=
  ∑ j ∈ Finset.range (d + 1), t ^ j • c j

/-- Its integral from `a` to `b`. -/
def polyIntegral (d : ℕ) (c : ℕ → V) (a b : K) : V :=
  ∑ j ∈ Finset.range (d + 1), ((b ^ (j + 1) - a ^ (j + 1)) / ((j : K) + 1)) • c j

/-- The classical fourth-order Runge-Kutta formula for an autonomous field. -/
def classicalRk4 (F : V → V) (h : K) (x : V) : V :=
  let k1 := F x
  let k2 := F (x + (h / 2) • k1)
  let k3 := F (x + (h / 2) • k2)
  let k4 := F (x + h • k3)
  x + (h / 6) • (k1 + (2 : K) • k2 + (2 : K) • k3 + k4)

end

/-! ### Butcher's order conditions, stated over all rooted trees -/

/-- Rooted trees (ordered representatives; the conditions do not depend on the order). -/
inductive RTree
  | node (children : List RTree)

mutual
/-- Number of vertices. -/
def RTree.order : RTree → ℕ
  | .node ch => 1 + RTree.orders ch
/-- Number of vertices of a forest. -/
def RTree.orders : List RTree → ℕ
  | [] => 0
  | τ :: rest => τ.order + RTree.orders rest
end

mutual
/-- The density `γ` of a rooted tree. -/
def RTree.density : RTree → ℕ
  | .node ch => (1 + RTree.orders ch) * RTree.densities ch
/-- Product of the densities of a forest. -/
def RTree.densities : List RTree → ℕ
  | [] => 1
  | τ :: rest => τ.density * RTree.densities rest
end

/-- Inner product of two lists, as long as both last. -/
def dot {K : Type} [Field K] : List K → List K → K
  | a :: as, b :: bs => a * b + dot as bs
  | _, _ => 0

mutual
/-- The stage weights `Φ_i(τ)`, `i = 1..s`, of a rooted tree for the Runge-Kutta matrix `A` (list of
rows). -/
def RTree.stageWeights {K : Type} [Field K] (A : List (List K)) : RTree → List K
  | .node ch => RTree.forestWeights A ch
/-- The products over a forest of `∑_j a_ij Φ_j(τ)`. -/
def RTree.forestWeights {K : Type} [Field K] (A : List (List K)) : List RTree → List K
  | [] => A.map (fun _ => 1)
  | τ :: rest =>
    List.zipWith (· * ·) (A.map (fun row => dot row (τ.stageWeights A))) (RTree.forestWeights A rest)
end

/-- The defect of the order condition of `τ`: `∑_i b_i Φ_i(τ) - 1/γ(τ)`. -/
def orderDefect {K : Type} [Field K] (A : List (List K)) (b : List K) (τ : RTree) : K :=
  dot b (τ.stageWeights A) - 1 / (τ.density : K)

end Spec
