import Verif.Model.Py
import Mathlib.Analysis.SpecialFunctions.Pow.Real
import Mathlib.Algebra.BigOperators.Fin

/-!
Root finding: /repo/torchdyn/numerics/solvers/root.py.

Tensors of shape `(bs, dims)` are functions `β → ι → ℝ`; the residual may have a different dimension `ο`.
Exact real arithmetic: infinities and NaNs do not occur, so `_safe_norm` (root.py:104-107) is the norm. `g`
is a pure function; autograd's `batch_jacobian` followed by `pinverse` (line 272) is a parameter `J0`, the
initial inverse Jacobian.
-/

namespace Torchdyn

variable {β ι ο : Type} [Fintype β] [Fintype ι] [Fintype ο]

/-- A batch of vectors. -/
abbrev Batch (β ι : Type) := β → ι → ℝ

/-- A batch of inverse Jacobians, `(bs, i, o)`. -/
abbrev BatchMat (β ι ο : Type) := β → ι → ο → ℝ

/-- root.py:51-57 `BroydenFull.update_jacobian`; `ε` is the attribute of line 49 (`1e-6` by default). -/
noncomputable def broydenFullUpdate (ε : ℝ) (Δg : Batch β ο) (Δz : Batch β ι) (J : BatchMat β ι ο) :
    BatchMat β ι ο :=
  let num : Batch β ι := fun b i => Δz b i - ∑ o, J b i o * Δg b o
  let den : β → ℝ := fun b => (∑ i, ∑ o, Δz b i * J b i o * Δg b o) + ε
  let prod : Batch β ο := fun b o => ∑ i, Δz b i * J b i o
  let ΔJ : BatchMat β ι ο := fun b i o => num b i / den b * prod b o
  fun b i o => J b i o + ΔJ b i o

/-- root.py:77-82 `BroydenBad.update_jacobian`; `tol` is the attribute `Δg_tol` (`1e-6` by default). -/
noncomputable def broydenBadUpdate (tol : ℝ) (Δg : Batch β ο) (Δz : Batch β ι) (J : BatchMat β ι ο) :
    BatchMat β ι ο :=
  let num : Batch β ι := fun b i => Δz b i - ∑ o, J b i o * Δg b o
  let den : β → ℝ := fun b => (∑ o, Δg b o ^ 2) + tol
  let ΔJ : BatchMat β ι ο := fun b i o => num b i * Δg b o / den b
  fun b i o => J b i o + ΔJ b i o

/-- The entries of root.py:250 `ROOT_SOLVER_DICT`. -/
inductive RootMethod
  | broydenFast | broyden | newton | chord
  deriving DecidableEq, Repr

/-- root.py:250 `ROOT_SOLVER_DICT`. -/
def rootSolverDict : List (String × RootMethod) :=
  [("broyden_fast", .broydenFast), ("broyden", .broyden), ("newton", .newton), ("chord", .chord)]

/-- The entries of root.py:249 `SEARCH_METHODS`. -/
inductive SearchMethod
  | naive | armijo | none
  deriving DecidableEq, Repr

/-- root.py:249 `SEARCH_METHODS`. -/
def searchMethods : List (String × SearchMethod) :=
  [("naive", .naive), ("armijo", .armijo), ("none", .none)]

/-- root.py:31-37 `Broyden.step`: returns `(z, dz, geval, J_inv)`. -/
noncomputable def broydenStep (update : Batch β ο → Batch β ι → BatchMat β ι ο → BatchMat β ι ο)
    (g : Batch β ι → Batch β ο) (z0 : Batch β ι) (J : BatchMat β ι ο) (gevalOld : Batch β ο) (alpha : ℝ) :
    Batch β ι × Batch β ι × Batch β ο × BatchMat β ι ο :=
  let dz : Batch β ι := fun b i => ∑ o, gevalOld b o * J b i o
  let z : Batch β ι := fun b i => z0 b i - alpha * dz b i
  let geval := g z
  let Δz : Batch β ι := fun b i => z b i - z0 b i
  let Δg : Batch β ο := fun b o => geval b o - gevalOld b o
  (z, dz, geval, update Δg Δz J)

/-- The `step` methods behind the names: root.py:31-37 with the two updates, and 88-90, 96-98 `Newton`,
`Chord`, which raise. -/
noncomputable def rootStep (method : RootMethod) (g : Batch β ι → Batch β ο) (z0 : Batch β ι)
    (J : BatchMat β ι ο) (gevalOld : Batch β ο) (alpha : ℝ) :
    Except PyErr (Batch β ι × Batch β ι × Batch β ο × BatchMat β ι ο) :=
  match method with
  | .broyden => .ok (broydenStep (broydenFullUpdate (1 / 10 ^ 6)) g z0 J gevalOld alpha)
  | .broydenFast => .ok (broydenStep (broydenBadUpdate (1 / 10 ^ 6)) g z0 J gevalOld alpha)
  | .newton => .error .notImplementedError
  | .chord => .error .notImplementedError

/-- root.py:104-107 `_safe_norm` on finite tensors: `torch.norm`, over all entries. -/
noncomputable def safeNorm (v : Batch β ο) : ℝ := Real.sqrt (∑ b, ∑ o, v b o ^ 2)

/-- root.py:118-120 `LineSearcher.phi`. -/
noncomputable def lsPhi (g : Batch β ι → Batch β ο) (dz z0 : Batch β ι) (alpha : ℝ) : ℝ :=
  safeNorm (g (fun b i => z0 b i + alpha * dz b i)) ^ 2

/-- root.py:130-132, the loop of `NaiveSearch.search`, at most `fuel` tests of its condition. -/
noncomputable def naiveLoop (phi : ℝ → ℝ) (phi0 minAlpha multFactor : ℝ) :
    (fuel : Nat) → (alpha phiA0 : ℝ) → Option (ℝ × ℝ)
  | 0, _, _ => Option.none
  | fuel + 1, alpha, phiA0 =>
    if phi0 < phiA0 ∧ minAlpha < alpha then
      let alpha := multFactor * alpha
      naiveLoop phi phi0 minAlpha multFactor fuel alpha (phi alpha)
    else some (alpha, phiA0)

/-- root.py:127-133 `NaiveSearch.search` with its default arguments. -/
noncomputable def naiveSearch (phi : ℝ → ℝ) (phi0 : ℝ) (fuel : Nat) : Option (ℝ × ℝ) :=
  naiveLoop phi phi0 (1 / 10 ^ 6) (1 / 10) fuel 1 (phi 1)

/-- root.py:165-173: the minimiser of the cubic interpolant. With exact arithmetic the divisions are
those of `ℝ` (`x / 0 = 0`) where the code would get infinities or NaNs; the theorems about the search hold
for every function in the place of this one. -/
noncomputable def cubicMin (phi0 derphi0 alpha0 alpha1 phiA0 phiA1 : ℝ) : ℝ :=
  let factor := alpha0 ^ 2 * alpha1 ^ 2 * (alpha1 - alpha0)
  let a := alpha0 ^ 2 * (phiA1 - phi0 - derphi0 * alpha1) -
    alpha1 ^ 2 * (phiA0 - phi0 - derphi0 * alpha0)
  let a := a / factor
  let b := -alpha0 ^ 3 * (phiA1 - phi0 - derphi0 * alpha1) +
    alpha1 ^ 3 * (phiA0 - phi0 - derphi0 * alpha0)
  let b := b / factor
  (-b + Real.sqrt |b ^ 2 - 3 * a * derphi0|) / (3 * a)

/-- root.py:164-188, the `while alpha1 > 1e-2` loop and the final `return`; `cubic` computes `alpha2` from
`alpha0 alpha1 phi_a0 phi_a1`. Note that after `alpha2` is halved `phi_a2` is not recomputed. -/
noncomputable def armijoLoop (phi : ℝ → ℝ) (phi0 derphi0 c1 : ℝ) (cubic : ℝ → ℝ → ℝ → ℝ → ℝ) :
    (fuel : Nat) → (alpha0 alpha1 phiA0 phiA1 : ℝ) → Option (ℝ × ℝ)
  | 0, _, _, _, _ => Option.none
  | fuel + 1, alpha0, alpha1, phiA0, phiA1 =>
    if 1 / 10 ^ 2 < alpha1 then
      let alpha2 := cubic alpha0 alpha1 phiA0 phiA1
      let phiA2 := phi alpha2
      if phiA2 ≤ phi0 + c1 * alpha2 * derphi0 then some (alpha2, phiA2)
      else
        let alpha2 := if alpha1 / 2 < alpha1 - alpha2 ∨ 1 - alpha2 / alpha1 < 96 / 100
          then alpha1 / 2 else alpha2
        armijoLoop phi phi0 derphi0 c1 cubic fuel alpha1 alpha2 phiA1 phiA2
    else some (1 / 10 ^ 2, phiA0)

/-- root.py:140-188 `LineSearchArmijo.search` with its default arguments `alpha0=1`, `c1=1e-4`. -/
noncomputable def armijoSearch (phi : ℝ → ℝ) (phi0 : ℝ)
    (cubic : (phi0 derphi0 alpha0 alpha1 phiA0 phiA1 : ℝ) → ℝ) (fuel : Nat) : Option (ℝ × ℝ) :=
  let alpha0 : ℝ := 1
  let c1 : ℝ := 1 / 10 ^ 4
  let phiA0 := phi alpha0
  let derphi0 := -phiA0
  if phiA0 < phi0 + c1 * alpha0 * derphi0 then some (alpha0, phiA0)
  else
    let alpha1 := -derphi0 * alpha0 ^ 2 / 2 / (phiA0 - phi0 - derphi0 * alpha0)
    let phiA1 := phi alpha1
    armijoLoop phi phi0 derphi0 c1 (cubic phi0 derphi0) fuel alpha0 alpha1 phiA0 phiA1

/-- root.py:281-284: the line search of one iteration. The searcher is built from the *new* point `z`, its
residual `geval` and the direction `dz` of the step that led to it. `none`: the search did not finish
within `fuel` (never, see C49). -/
noncomputable def searchAlpha (search : SearchMethod) (g : Batch β ι → Batch β ο) (geval : Batch β ο)
    (dz z : Batch β ι) (alpha : ℝ) (fuel : Nat) : Option ℝ :=
  match search with
  | .none => some alpha
  | .naive => (naiveSearch (lsPhi g dz z) (safeNorm geval ^ 2) fuel).map Prod.fst
  | .armijo => (armijoSearch (lsPhi g dz z) (safeNorm geval ^ 2) cubicMin fuel).map Prod.fst

/-- `norm(v, p=2, dim=1)`. -/
noncomputable def rowNorm (v : Batch β ι) (b : β) : ℝ := Real.sqrt (∑ i, v b i ^ 2)

open Classical in
/-- root.py:233-243 `TerminationCondition.check`; `f0Norm` is the attribute `f0_norm` (`None` before the
first check). Returns the new `f0_norm` and whether the code is positive. -/
noncomputable def termCheck (fTol fRtol xTol xRtol : ℝ) (f0Norm : Option (β → ℝ)) (geval : Batch β ο)
    (z dz : Batch β ι) : (β → ℝ) × Bool :=
  let gNorm := rowNorm geval
  let zNorm := rowNorm z
  let dzNorm := rowNorm dz
  let f0 := f0Norm.getD gNorm
  let cond1 : Prop := (∀ b, gNorm b ≤ fTol) ∧ ∀ b, gNorm b / fRtol ≤ f0 b
  let cond2 : Prop := (∀ b, dzNorm b ≤ xTol) ∧ ∀ b, dzNorm b / xRtol ≤ zNorm b
  (f0, decide (cond1 ∧ cond2))

/-- The settings of a call of `root_find` (root.py:259-260). -/
structure RootCfg where
  fTol : ℝ
  fRtol : ℝ
  xTol : ℝ
  xRtol : ℝ
  maxiters : Nat

/-- The local variables of `root_find`. -/
structure RootState (β ι ο : Type) where
  iteration : Nat
  z : Batch β ι
  dz : Batch β ι
  geval : Batch β ο
  Jinv : BatchMat β ι ο
  alpha : ℝ
  f0Norm : Option (β → ℝ)
  /-- `termination_condition` was logged -/
  terminated : Bool

/-- root.py:275-298, the loop. It performs at most `maxiters + 1` iterations, so `left = maxiters + 1 -
iteration` counts down. `fuel` is handed to the line search. -/
noncomputable def rootLoop (cfg : RootCfg) (method : RootMethod) (search : SearchMethod)
    (g : Batch β ι → Batch β ο) (fuel : Nat) :
    (left : Nat) → RootState β ι ο → Except PyErr (Option (RootState β ι ο))
  | 0, s => .ok (some s)
  | left + 1, s => do
    let (z, dz, geval, J) ← rootStep method g s.z s.Jinv s.geval s.alpha
    match searchAlpha search g geval dz z s.alpha fuel with
    | Option.none => pure Option.none
    | some alpha =>
      let (f0, stop) := termCheck cfg.fTol cfg.fRtol cfg.xTol cfg.xRtol s.f0Norm geval z dz
      let s' : RootState β ι ο :=
        ⟨s.iteration + 1, z, dz, geval, J, alpha, some f0, stop⟩
      if stop then pure (some s') else rootLoop cfg method search g fuel left s'

/-- root.py:259-300 `root_find`. The returned record contains the returned point `z` and what the logger
holds after a verbose run (`geval`, `z`, `dz`, `iteration`, whether `termination_condition` was set). -/
noncomputable def rootFind (cfg : RootCfg) (method search : String) (g : Batch β ι → Batch β ο)
    (J0 : BatchMat β ι ο) (z : Batch β ι) (alpha : ℝ) (fuel : Nat) :
    Except PyErr (Option (RootState β ι ο)) :=
  match rootSolverDict.find? (fun p => p.1 == method) with
  | Option.none => .error .assertionError
  | some p =>
    match searchMethods.find? (fun p => p.1 == search) with
    | Option.none => .error .assertionError
    | some q =>
      rootLoop cfg p.2 q.2 g fuel (cfg.maxiters + 1)
        ⟨0, z, fun _ _ => 0, g z, J0, alpha, Option.none, false⟩

end Torchdyn
