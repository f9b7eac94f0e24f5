import Mathlib.Analysis.Calculus.FDeriv.Basic
import Mathlib.Analysis.Calculus.Deriv.Basic
import Mathlib.Analysis.Normed.Group.Constructions
import Verif.Model.Sensitivity

/-!
The adjoint solve on the flat vector: how /repo/torchdyn/numerics/sensitivity.py:43-98 `backward` calls `odeint`, with the
seminorm that leaves the parameter gradient out of the error test.
-/

namespace Torchdyn

variable {ι κ A : Type} [Fintype ι] [Fintype κ]

/-- The entries of the flat adjoint vector `A` of sensitivity.py:55, in this order: state, adjoint state, parameter adjoint,
time adjoint. -/
abbrev AdjIdx (ι κ : Type) := ι ⊕ ι ⊕ κ ⊕ Unit

/-- sensitivity.py:55 and 75, `torch.cat([x.flatten(), λ.flatten(), μ.flatten(), λt])`. -/
def packState (a : AdjState (ι → ℝ) (ι → ℝ) (κ → ℝ) ℝ) : AdjIdx ι κ → ℝ
  | .inl i => a.1 i
  | .inr (.inl i) => a.2.1 i
  | .inr (.inr (.inl k)) => a.2.2.1 k
  | .inr (.inr (.inr _)) => a.2.2.2

/-- sensitivity.py:59, 87-92: the slices. -/
def unpackState (v : AdjIdx ι κ → ℝ) : AdjState (ι → ℝ) (ι → ℝ) (κ → ℝ) ℝ :=
  (fun i => v (.inl i), fun i => v (.inr (.inl i)), fun k => v (.inr (.inr (.inl k))), v (.inr (.inr (.inr ()))))

/-- sensitivity.py:84, `seminorm=(True, xT_nel+λT_nel)`: the first `xT_nel+λT_nel` entries, i.e. those of `x` and `λ`. -/
def seminormEntries (ι κ : Type) [Fintype ι] [Fintype κ] : Finset (AdjIdx ι κ) :=
  Finset.univ.filter fun i => i.isLeft || i.getRight?.any Sum.isLeft

/-- sensitivity.py:82-84: `odeint(adjoint_dynamics, A, [tHi, tLo], solver_adjoint, atol=…, rtol=…, seminorm=…)` as the argument
`solve` of `adjointBackward`. A run that does not finish within `fuel` tests of the loop condition is reported as
`RuntimeError`; in Python it does not return. `sel` is the set of entries the seminorm keeps. -/
noncomputable def adjointOdeintOn (sel : Finset (AdjIdx ι κ)) (fuel : ℕ)
    (solver : Solver (Except PyErr) ℝ (AdjIdx ι κ → ℝ) A) (atol rtol : ℝ) (args : A)
    (dyn : ℝ → AdjState (ι → ℝ) (ι → ℝ) (κ → ℝ) ℝ → Except PyErr (AdjState (ι → ℝ) (ι → ℝ) (κ → ℝ) ℝ))
    (a : AdjState (ι → ℝ) (ι → ℝ) (κ → ℝ) ℝ) (tSpan : List ℝ) :
    Except PyErr (List ℝ × List (AdjState (ι → ℝ) (ι → ℝ) (κ → ℝ) ℝ)) := do
  let r ← odeint fuel (fun t v => do let d ← dyn t (unpackState v); pure (packState d)) (packState a) tSpan solver atol rtol
    false false [] args sel
  match r with
  | some (ts, vs) => pure (ts, vs.map unpackState)
  | none => throw .runtimeError

/-- sensitivity.py:82-84, with the seminorm of line 84. -/
noncomputable def adjointOdeint (fuel : ℕ) (solver : Solver (Except PyErr) ℝ (AdjIdx ι κ → ℝ) A) (atol rtol : ℝ) (args : A) :=
  adjointOdeintOn (seminormEntries ι κ) fuel solver atol rtol args

open Classical in
/-- What `torch.autograd.grad(dx, (x, t) + parameters, λ)` (sensitivity.py:64) gives in coordinates for a differentiable field
`f θ t x`: the derivatives of `∑ j, λ j * f θ t x j`; the pairing of line 53; no integral loss. -/
noncomputable def coordAdjoint (f : (κ → ℝ) → ℝ → (ι → ℝ) → (ι → ℝ)) (θ : κ → ℝ) : AdjointField ℝ (ι → ℝ) (ι → ℝ) (κ → ℝ) where
  vf t x := f θ t x
  vjpX t x lam i := fderiv ℝ (fun x' => ∑ j, lam j * f θ t x' j) x (Pi.single i 1)
  vjpP t x lam k := fderiv ℝ (fun θ' => ∑ j, lam j * f θ' t x j) θ (Pi.single k 1)
  vjpT t x lam := deriv (fun s => ∑ j, lam j * f θ s x j) t
  pair lam x := ∑ j, lam j * x j
  lossGrad := none

end Torchdyn
