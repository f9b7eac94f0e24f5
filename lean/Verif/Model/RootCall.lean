import Mathlib.Analysis.Calculus.FDeriv.Basic
import Mathlib.Analysis.Normed.Group.Constructions
import Mathlib.Data.Matrix.Mul
import Verif.Model.Root

/-!
The call `root_find(g, z, …)` of /repo/torchdyn/numerics/solvers/root.py:259-300 including the Jacobian it starts from
(lines 255-257, 272), which `Verif.Model.Root` takes as a parameter. `g` is called on the batch `z` (line 269) and, by
`torch.autograd.functional.jacobian`, on its rows (line 257); what it does with a row decides the shapes of everything else.
-/

namespace Torchdyn

variable {β ι ο : Type} [Fintype β] [Fintype ι] [Fintype ο]

/-- The Penrose equations: `P` is the pseudo-inverse of `M`. -/
structure IsPinverse (M : Matrix ο ι ℝ) (P : Matrix ι ο ℝ) : Prop where
  mpm : M * P * M = M
  pmp : P * M * P = P
  symm_left : (M * P).transpose = M * P
  symm_right : (P * M).transpose = P * M

open Classical in
/-- `torch.pinverse` on one matrix (root.py:272), the Moore–Penrose inverse (it exists: `exists_pinverse`). The cutoff
`rcond=1e-15` below which torch treats singular values as zero is left out. -/
noncomputable def pinverse (M : Matrix ο ι ℝ) : Matrix ι ο ℝ := if h : ∃ P, IsPinverse M P then h.choose else 0

open Classical in
/-- `torch.autograd.functional.jacobian(func, el)` for a function of one row (root.py:257), `(o, i)`. -/
noncomputable def rowJacobian (G : (ι → ℝ) → (ο → ℝ)) (x : ι → ℝ) : Matrix ο ι ℝ := fun o i => fderiv ℝ G x (Pi.single i 1) o

/-- root.py:255-257, 272: `batch_jacobian(g, z).pinverse()` for a function that acts on the last dimension of its argument,
whatever the other dimensions: `jacobian` gives one matrix per row. -/
noncomputable def initialInverse (G : (ι → ℝ) → (ο → ℝ)) (z : Batch β ι) : BatchMat β ι ο := fun b => pinverse (rowJacobian G (z b))

/-- root.py:259-300 `root_find(g, z, …)` for a residual that acts on the last dimension of its argument, `g(z)[b] = G(z[b])`
for batches and `g(x) = G(x)` for rows. An empty batch makes `torch.stack([])` raise `RuntimeError` (line 257). -/
noncomputable def rootFindRows (cfg : RootCfg) (method search : String) (G : (ι → ℝ) → (ο → ℝ)) (z : Batch β ι) (alpha : ℝ)
    (fuel : Nat) : Except PyErr (Option (RootState β ι ο)) :=
  if method ∉ rootSolverDict.map Prod.fst ∨ search ∉ searchMethods.map Prod.fst then .error .assertionError
  else if Fintype.card β = 0 then .error .runtimeError
  else rootFind cfg method search (fun z b => G (z b)) (initialInverse G z) z alpha fuel

/-- root.py:259-300 for a residual that only works on batches (it indexes or reduces dimension 1): the call on a row at line
257 raises `err` (`IndexError` in torch), after the assertions of lines 261-262 and the call on the batch at line 269. -/
def rootFindBatchOnly {S : Type} (method search : String) (err : PyErr) : Except PyErr S :=
  if method ∉ rootSolverDict.map Prod.fst ∨ search ∉ searchMethods.map Prod.fst then .error .assertionError
  else if Fintype.card β = 0 then .error .runtimeError
  else .error err

/-! ### Residuals that carry data per sample

`g(z)[b] = G b (z[b])`, where `G b` uses the `b`-th row of some tensor of shape `(bs, …)`. On a row `x` such a function
broadcasts: `g(x)[b] = G b x`. So `jacobian` has shape `(bs, o, i)`, `batch_jacobian` and its pseudo-inverse have one more
dimension, and by broadcasting `dz` and `z` become tensors of shape `(bs, bs, dims)` in the first iteration. -/

/-- root.py:257, 272: entry `(a, b)` is the pseudo-inverse of the Jacobian of `G b` at the row `z[a]`. -/
noncomputable def initialInverse3 (G : β → (ι → ℝ) → (ι → ℝ)) (z : Batch β ι) : BatchMat (β × β) ι ι :=
  fun p => pinverse (rowJacobian (G p.2) (z p.1))

/-- root.py:77-82 `BroydenBad.update_jacobian` on tensors of shape `(bs, bs, dims)`: `dim=1` is the second batch dimension and
`Δg.T` reverses all dimensions, so that the entry `(a, b, i, o)` of the correction is
`num[a, b, i] * Δg[b, a, o] / (sum_b' Δg[a, b', i] ** 2 + tol)`. -/
noncomputable def broydenBadUpdate3 (tol : ℝ) (Δg : Batch (β × β) ι) (Δz : Batch (β × β) ι) (J : BatchMat (β × β) ι ι) :
    BatchMat (β × β) ι ι :=
  let num : Batch (β × β) ι := fun p i => Δz p i - ∑ o, J p i o * Δg p o
  fun p i o => J p i o + num p i * Δg (p.2, p.1) o / ((∑ b, Δg (p.1, b) i ^ 2) + tol)

/-- root.py:31-37, 88-90, 96-98 on tensors of shape `(bs, bs, dims)`; `BroydenFull` (lines 51-57) only contracts the last
dimensions. -/
noncomputable def rootStep3 (method : RootMethod) (g : Batch (β × β) ι → Batch (β × β) ι) (z0 : Batch (β × β) ι)
    (J : BatchMat (β × β) ι ι) (gevalOld : Batch (β × β) ι) (alpha : ℝ) :
    Except PyErr (Batch (β × β) ι × Batch (β × β) ι × Batch (β × β) ι × BatchMat (β × β) ι ι) :=
  match method with
  | .broyden => .ok (broydenStep (broydenFullUpdate (1 / 10 ^ 6)) g z0 J gevalOld alpha)
  | .broydenFast => .ok (broydenStep (broydenBadUpdate3 (1 / 10 ^ 6)) g z0 J gevalOld alpha)
  | .newton => .error .notImplementedError
  | .chord => .error .notImplementedError

/-- `norm(v, p=2, dim=1)` of a tensor of shape `(bs, bs, dims)`: over the second batch dimension. -/
noncomputable def midNorm (v : Batch (β × β) ι) (p : β × ι) : ℝ := Real.sqrt (∑ b, v (p.1, b) p.2 ^ 2)

open Classical in
/-- root.py:233-243 `TerminationCondition.check` on tensors of shape `(bs, bs, dims)`. -/
noncomputable def termCheck3 (fTol fRtol xTol xRtol : ℝ) (f0Norm : Option (β × ι → ℝ)) (geval z dz : Batch (β × β) ι) :
    (β × ι → ℝ) × Bool :=
  let gNorm := midNorm geval
  let zNorm := midNorm z
  let dzNorm := midNorm dz
  let f0 := f0Norm.getD gNorm
  let cond1 : Prop := (∀ p, gNorm p ≤ fTol) ∧ ∀ p, gNorm p / fRtol ≤ f0 p
  let cond2 : Prop := (∀ p, dzNorm p ≤ xTol) ∧ ∀ p, dzNorm p / xRtol ≤ zNorm p
  (f0, decide (cond1 ∧ cond2))

/-- The local variables of `root_find` when they have grown a dimension. -/
structure RootState3 (β ι : Type) where
  iteration : Nat
  /-- shape `(bs, bs, dims)` -/
  z : Batch (β × β) ι
  dz : Batch (β × β) ι
  geval : Batch (β × β) ι
  Jinv : BatchMat (β × β) ι ι
  alpha : ℝ
  f0Norm : Option (β × ι → ℝ)
  terminated : Bool

/-- root.py:275-298 on tensors of shape `(bs, bs, dims)`; see `rootLoop`. -/
noncomputable def rootLoop3 (cfg : RootCfg) (method : RootMethod) (search : SearchMethod)
    (g : Batch (β × β) ι → Batch (β × β) ι) (fuel : Nat) :
    (left : Nat) → RootState3 β ι → Except PyErr (Option (RootState3 β ι))
  | 0, s => .ok (some s)
  | left + 1, s => do
    let (z, dz, geval, J) ← rootStep3 method g s.z s.Jinv s.geval s.alpha
    match searchAlpha search g geval dz z s.alpha fuel with
    | Option.none => pure Option.none
    | some alpha =>
      let (f0, stop) := termCheck3 cfg.fTol cfg.fRtol cfg.xTol cfg.xRtol s.f0Norm geval z dz
      let s' : RootState3 β ι := ⟨s.iteration + 1, z, dz, geval, J, alpha, some f0, stop⟩
      if stop then pure (some s') else rootLoop3 cfg method search g fuel left s'

/-- root.py:259-300 `root_find(g, z, …)` for a residual with data per sample. The first iteration broadcasts `z` and `g(z)`
of shape `(bs, dims)` to `(bs, bs, dims)`; since there is at least one iteration (`maxiters ≥ 0`) the result always has this
shape. -/
noncomputable def rootFindPerSample (cfg : RootCfg) (method search : String) (G : β → (ι → ℝ) → (ι → ℝ)) (z : Batch β ι)
    (alpha : ℝ) (fuel : Nat) : Except PyErr (Option (RootState3 β ι)) :=
  match rootSolverDict.find? (fun p => p.1 == method), searchMethods.find? (fun p => p.1 == search) with
  | some p, some q =>
    if Fintype.card β = 0 then .error .runtimeError
    else rootLoop3 cfg p.2 q.2 (fun z p => G p.2 (z p)) fuel (cfg.maxiters + 1)
      ⟨0, fun p => z p.2, fun _ _ => 0, fun p => G p.2 (z p.2), initialInverse3 G z, alpha, Option.none, false⟩
  | _, _ => .error .assertionError

end Torchdyn
