import Verif.Model.Py
import Mathlib.Analysis.SpecialFunctions.Pow.Real
import Mathlib.Algebra.Order.BigOperators.Group.Finset

/-!
Error norm and step size control: /repo/torchdyn/numerics/utils.py and the error computation of
/repo/torchdyn/numerics/odeint.py:365-372, 295-303. Tensors with finitely many entries are functions
`ι → ℝ` on a finite index type (the norms see the flattened tensor).
-/

namespace Torchdyn

open Classical in
/-- numerics/utils.py:33-34 `hairer_norm`: root mean square, restricted to the entries in `s`
(`s = Finset.univ` for the full tensor). Python gives NaN for an empty tensor; here `0`. -/
noncomputable def hairerNormOn {ι : Type} (s : Finset ι) (x : ι → ℝ) : ℝ :=
  Real.sqrt ((∑ i ∈ s, |x i| ^ 2) / (s.card : ℝ))

/-- numerics/utils.py:33-34 `hairer_norm`. -/
noncomputable def hairerNorm {ι : Type} [Fintype ι] (x : ι → ℝ) : ℝ :=
  hairerNormOn Finset.univ x

/-- odeint.py:367-371 (and 297-301): `error / (atol + rtol * max(|x|, |x_new|))`. -/
noncomputable def errorScaled {ι : Type} (atol rtol : ℝ) (x xNew xErr : ι → ℝ) : ι → ℝ :=
  fun i => xErr i / (atol + rtol * max |x i| |xNew i|)

/-- odeint.py:365-372: `error_ratio`. `sel` is the set of entries kept by the seminorm
(`x_err[:state_dim]`); without seminorm it is everything. -/
noncomputable def errorRatio {ι : Type} (sel : Finset ι) (atol rtol : ℝ) (x xNew xErr : ι → ℝ) : ℝ :=
  hairerNormOn sel (errorScaled atol rtol x xNew xErr)

/-- odeint.py:365-368: the entries selected by `seminorm = (flag, state_dim)` for a 1-d state of
length `n`. -/
def seminormSel {n : Nat} (seminorm : Bool × Nat) : Finset (Fin n) :=
  if seminorm.1 then Finset.univ.filter (fun i => i.val < seminorm.2) else Finset.univ

/-- numerics/utils.py:57-63 `adapt_step`. -/
noncomputable def adaptStep (dt errorRatio safety minFactor maxFactor : ℝ) (order : Nat) : ℝ :=
  if errorRatio = 0 then dt * maxFactor
  else
    let minFactor := if errorRatio < 1 then 1 else minFactor
    let exponent : ℝ := (order : ℝ)⁻¹
    let factor := min maxFactor (max (safety / errorRatio ^ exponent) minFactor)
    dt * factor

/-- numerics/utils.py:41-44: the trial step `h0` of `init_step`. -/
noncomputable def initTrial (d0 d1 : ℝ) : ℝ :=
  if d0 < 1 / 10 ^ 5 ∨ d1 < 1 / 10 ^ 5 then 1 / 10 ^ 6 else 1 / 100 * d0 / d1

/-- numerics/utils.py:49-52: the second candidate `h1` of `init_step`. -/
noncomputable def initSecond (d1 d2 h0 : ℝ) (order : Nat) : ℝ :=
  if d1 ≤ 1 / 10 ^ 15 ∧ d2 ≤ 1 / 10 ^ 15 then max (1 / 10 ^ 6) (h0 * (1 / 10 ^ 3))
  else (1 / 100 / max d1 d2) ^ ((1 : ℝ) / ((order : ℝ) + 1))

/-- numerics/utils.py:37-54 `init_step`. One evaluation of `f`. -/
noncomputable def initStep {ι : Type} [Fintype ι] {m : Type → Type} [Monad m]
    (f : ℝ → (ι → ℝ) → m (ι → ℝ)) (f0 x0 : ι → ℝ) (t0 : ℝ) (order : Nat) (atol rtol : ℝ) : m ℝ := do
  let scale : ι → ℝ := fun i => atol + |x0 i| * rtol
  let d0 := hairerNorm (fun i => x0 i / scale i)
  let d1 := hairerNorm (fun i => f0 i / scale i)
  let h0 := initTrial d0 d1
  let xNew : ι → ℝ := fun i => x0 i + h0 * f0 i
  let fNew ← f (t0 + h0) xNew
  let d2 := hairerNorm (fun i => (fNew i - f0 i) / scale i) / h0
  let h1 := initSecond d1 d2 h0 order
  pure (min (100 * h0) h1)

end Torchdyn
