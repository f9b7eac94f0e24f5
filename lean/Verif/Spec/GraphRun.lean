import Verif.Spec.Adaptive

/-!
Specification vocabulary for gradients through adaptive integration.
-/

namespace Spec

open Torchdyn

/-- What autograd differentiates when it is applied to an adaptive integration at inputs `q`: times `τ p` and states `x p` for inputs `p`
near `q`. At `q` the steps are accepted steps; for all inputs the same steps are made, whatever their error. A step adds a constant to the
time, or it ends at a requested time in `ts`, or it is the first one, of length `δ0 p`. -/
inductive GraphRun {Q ι A : Type} (solver : Solver (Except PyErr) ℝ (ι → ℝ) A) (args : A) (f : Q → ℝ → (ι → ℝ) → (ι → ℝ)) (q : Q)
    (sel : Finset ι) (atol rtol : ℝ) (δ0 : Q → ℝ) (ts : List ℝ) (t0 : ℝ) (x0 : Q → ι → ℝ) : (Q → ℝ) → (Q → ι → ℝ) → Prop
  | start : GraphRun solver args f q sel atol rtol δ0 ts t0 x0 (fun _ => t0) x0
  | step {τ τ' : Q → ℝ} {x x' : Q → ι → ℝ} : GraphRun solver args f q sel atol rtol δ0 ts t0 x0 τ x →
      ((∃ c, ∀ p, τ' p = τ p + c) ∨ (∃ te ∈ ts, ∀ p, τ' p = te) ∨ ∀ p, τ p = t0 ∧ τ' p = t0 + δ0 p) →
      AcceptedStep solver args (f q) sel atol rtol (τ q, x q) (τ' q, x' q) →
      (∀ p, ∃ k e st, solver.step (fun t x => .ok (f p t x)) (x p) (τ p) (τ' p - τ p) none args = .ok (.four k (x' p) e st)) →
      GraphRun solver args f q sel atol rtol δ0 ts t0 x0 τ' x'

end Spec
