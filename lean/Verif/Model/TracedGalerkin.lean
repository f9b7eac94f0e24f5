import Verif.Model.Layers
import Mathlib.Algebra.DualNumber

/-!
Galerkin layers inside an autograd graph, /repo/torchdyn/nn/galerkin.py.

A scalar in the graph is modelled by its value `fst` and its derivative `snd` along one direction of the leaves (coefficients,
dilation, shift and depth), as the graph records it: a dual number. Sums and products of tensors are those of dual numbers, and the
elementary functions are given with the derivatives of torch. Reverse accumulation itself is not modelled.
-/

namespace Torchdyn

open TrivSqZeroExt

/-- A scalar tensor in the graph. -/
abbrev TracedScalar : Type := DualNumber ℝ

/-- The tensor with value `v` and recorded derivative `d`. -/
noncomputable def onGraph (v d : ℝ) : TracedScalar := inl v + inr d

/-- A tensor that does not depend on the leaves: a constant, or the result of `.item()`, of `torch.tensor(...)` or of `.detach()`. -/
noncomputable def offGraph (x : ℝ) : TracedScalar := inl x

/-- `torch.cos`. -/
noncomputable def tracedCos (x : TracedScalar) : TracedScalar := onGraph (Real.cos x.fst) (-Real.sin x.fst * x.snd)

/-- `torch.sin`. -/
noncomputable def tracedSin (x : TracedScalar) : TracedScalar := onGraph (Real.sin x.fst) (Real.cos x.fst * x.snd)

/-- `x ** k` for a constant exponent; the derivative is zero for the exponent zero. -/
noncomputable def tracedPow (x : TracedScalar) (k : ℝ) : TracedScalar :=
  onGraph (x.fst ^ k) (if k = 0 then 0 else k * x.fst ^ (k - 1) * x.snd)

/-- `torch.norm(x, p=2)` of a tensor with one entry; the derivative is zero at zero. -/
noncomputable def tracedNorm (x : TracedScalar) : TracedScalar :=
  onGraph (Real.sqrt (x.fst ^ 2)) (if x.fst = 0 then 0 else x.fst / Real.sqrt (x.fst ^ 2) * x.snd)

/-- `math.e ** x`. -/
noncomputable def tracedExp (x : TracedScalar) : TracedScalar := onGraph (Real.exp x.fst) (Real.exp x.fst * x.snd)

/-- `torch.sqrt`. -/
noncomputable def tracedSqrt (x : TracedScalar) : TracedScalar := onGraph (Real.sqrt x.fst) (x.snd / (2 * Real.sqrt x.fst))

/-- galerkin.py:117-120 `Fourier.forward` in the graph. -/
noncomputable def tracedFourier (deg : Nat) : ExpFunc TracedScalar :=
  ⟨deg, 2, fun nRange s => pure [nRange.map (fun k => tracedCos (s * k)), nRange.map (fun k => tracedSin (s * k))]⟩

/-- galerkin.py:135-137 `Polynomial.forward` in the graph. The exponents `n_range` are constants. -/
noncomputable def tracedPolynomial (deg : Nat) : ExpFunc TracedScalar :=
  ⟨deg, 1, fun nRange s => pure [nRange.map (fun k => tracedPow s k.fst)]⟩

/-- galerkin.py:40-44, 69-73, 98-102: the radial basis functions in the graph, with `adaptive=False`: `centers = 0` and
`eps_scales = 2` (with `adaptive=True` the layers raise, C79). -/
noncomputable def tracedRbf (kind : RbfKind) (deg : Nat) : ExpFunc TracedScalar :=
  ⟨deg, 1, fun nRange s =>
    let r := tracedNorm (s - offGraph 0)
    pure [match kind with
      | .gaussian => (nRange.map (fun n => (n - offGraph 0) * offGraph (1 / 2))).map (fun n => tracedExp (-(r * n) ^ 2))
      | .vanilla => (nRange.map (fun n => n * offGraph (1 / 2))).map (fun n => r * n)
      | .multiquad => (nRange.map (fun n => n * offGraph (1 / 2))).map (fun n => 1 + tracedSqrt (1 + (r * n) ^ 2))]⟩

/-- galerkin.py:152-161 `Chebychev.forward` in the graph: `s.item()` is a number, the further entries are computed from it and from
`s2 = 2 * s`, and `torch.tensor(basis)` copies the values of all entries into a new tensor outside of the graph. -/
noncomputable def tracedChebychev (toNat : ℝ → Nat) (deg : Nat) : ExpFunc TracedScalar :=
  ⟨deg, 1, fun nRange s => do
    let last ← getLastItem nRange
    let maxOrder := toNat last.fst
    let basis : List TracedScalar :=
      if 0 < maxOrder then 1 :: offGraph s.fst :: chebLoop s (maxOrder - 2) 1 (offGraph s.fst) else [1]
    pure [basis.map (fun x => offGraph x.fst)]⟩

/-- galerkin.py:177-189 `calculate_weights` in the graph. With `dilation=False` or `shift=False` the respective tensor is constant. -/
noncomputable def tracedWeights {P : Nat} (e : ExpFunc TracedScalar) (coeffs : Fin P → Fin e.deg → Fin e.nEig → TracedScalar)
    (dilation shift t : TracedScalar) : Except PyErr (Fin P → TracedScalar) := do
  let nRange := (linspace0 (e.deg : ℝ) e.deg).map offGraph
  let basis ← e.forward nRange (t * dilation + shift)
  galWeights e.deg e.nEig basis coeffs

end Torchdyn
