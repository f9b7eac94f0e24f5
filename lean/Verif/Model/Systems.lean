import Verif.Model.Py
import Mathlib.Analysis.SpecialFunctions.Trigonometric.Basic
import Mathlib.Data.Matrix.Mul

/-!
The bundled systems: /repo/torchdyn/numerics/systems.py. The state is a batch `β × δ → ℝ` of samples with entries `δ`;
the code acts on the last axis. Three-dimensional slices such as `x[..., 2:]` are modelled for samples of the width the
system is made for. Random parameters are arbitrary arguments: `randomize_parameters` replaces them by others.
-/

namespace Torchdyn

/-- The systems act on each sample of a batch by itself: every operation of the `forward` methods is elementwise in the
leading axes. -/
def batched {K β δ : Type} (g : (δ → K) → (δ → K)) : (β × δ → K) → (β × δ → K) :=
  fun y p => g (fun d => y (p.1, d)) p.2

/-- systems.py:24-29 `Lorenz.forward`, one sample. The unused `nn.Linear` of line 22 is dropped. -/
def lorenz {K : Type} [Field K] (x : Fin 3 → K) : Fin 3 → K :=
  let x1 := x 0
  let x2 := x 1
  let x3 := x 2
  ![10 * (x2 - x1), x1 * (28 - x3) - x2, x1 * x2 - 8 / 3 * x3]

/-- systems.py:38-41 `VanDerPol.forward`, one sample, without the counter. -/
def vanDerPol {K : Type} [Field K] (alpha : K) (x : Fin 2 → K) : Fin 2 → K :=
  let x1 := x 0
  let x2 := x 1
  ![x2, alpha * (1 - x1 ^ 2) * x2 - x1]

/-- systems.py:38-41 `VanDerPol.forward`, with `self.nfe += 1` (the state of the monad is `nfe`). -/
def vanDerPolForward {K β : Type} [Field K] (alpha : K) :
    K → (β × Fin 2 → K) → StateT Nat (Except PyErr) (β × Fin 2 → K) :=
  fun _ x => do
    modify (· + 1)
    pure (batched (vanDerPol alpha) x)

/-- systems.py:48-49 `ODEProblem2.forward`. -/
def odeProblem2 {K V : Type} [Field K] [AddCommGroup V] [Module K V] (_s : K) (z : V) : V := (1 / 2 : K) • z

/-- systems.py:56-57 `ODEProblem3.forward`. -/
def odeProblem3 {K V : Type} [Field K] [AddCommGroup V] [Module K V] (_s : K) (z : V) : V := (-1 / 10 : K) • z

/-- systems.py:66-71 `ODEProblem4.forward`, one sample. -/
def odeProblem4 {K : Type} [Field K] (z : Fin 3 → K) : Fin 3 → K :=
  let x1 := z 0
  let x2 := z 1
  let x3 := z 2
  ![x2 * (x3 - 1 + x1 ^ 2) + 87 / 100 * x1, x1 * (3 * x3 + 1 - x1 ^ 2) + 87 / 100 * x2,
    -2 * x3 * (11 / 10 + x1 * x2)]

/-- systems.py:78-80 `SineSystem.forward`. -/
noncomputable def sineSystem {ι : Type} (s : ℝ) (_z : ι → ℝ) : ι → ℝ := fun _ => Real.sin (s * 1)

/-- The parameters of an `nn.Linear(n, m)`: weight (`m × n`) and bias. -/
structure Linear (n m : ℕ) where
  weight : Matrix (Fin m) (Fin n) ℝ
  bias : Fin m → ℝ

/-- `nn.Linear.forward` on one sample. -/
def Linear.forward {n m : ℕ} (l : Linear n m) (x : Fin n → ℝ) : Fin m → ℝ := fun i => l.weight.mulVec x i + l.bias i

/-- systems.py:90-91 `LTISystem.forward`, one sample. -/
def ltiSystem {dim : ℕ} (l : Linear dim dim) (x : Fin dim → ℝ) : Fin dim → ℝ := l.forward x

/-- The sampled parameters of `FourierSystem` and `StiffFourierSystem` (systems.py:106-113, 143-150): amplitudes, phases
and frequencies of shape `(dim, n_harmonics, 2)`. -/
structure FourierParams (dim n : ℕ) where
  A : Fin dim → Fin n → Fin 2 → ℝ
  phi : Fin dim → Fin n → Fin 2 → ℝ
  w : Fin dim → Fin n → Fin 2 → ℝ

/-- systems.py:119-120 (and 156-157, 194-195): the value at one time, without the leading axis. -/
noncomputable def FourierParams.value {dim n : ℕ} (p : FourierParams dim n) (s : ℝ) : Fin dim → ℝ :=
  fun d => ∑ h, (p.A d h 0 * Real.cos (p.w d h 0 * s + p.phi d h 0) + p.A d h 1 * Real.cos (p.w d h 1 * s + p.phi d h 1))

/-- systems.py:117-126 `FourierSystem.forward` and 154-163 `StiffFourierSystem.forward` (the same code) on a
one-dimensional `s`: the rows are concatenated in a loop. -/
noncomputable def FourierParams.forwardTimes {dim n : ℕ} (p : FourierParams dim n) (s : List ℝ) :
    Except PyErr (List (Fin dim → ℝ)) :=
  if s = [] then throw PyErr.runtimeError
  else pure (s.foldl (fun sol s' => sol ++ [p.value s']) [])

/-- systems.py:118-120 on a scalar `s`: a row of shape `(1, dim)`, the same for all samples (inside the solvers it is
broadcast against the state `(batch, dim)`). -/
noncomputable def fourierSystem {β : Type} {dim n : ℕ} (p : FourierParams dim n) (s : ℝ) (_x : β × Fin dim → ℝ) :
    β × Fin dim → ℝ :=
  fun q => p.value s q.2

/-- systems.py:192-196 `CoupledFourierSystem.forward` on a scalar `s`. -/
noncomputable def coupledFourierSystem {β : Type} {dim n : ℕ} (p : FourierParams dim n) (l : Linear dim dim) (s : ℝ)
    (_x : β × Fin dim → ℝ) : β × Fin dim → ℝ :=
  fun q => l.forward (p.value s) q.2

/-- systems.py:198-203 `CoupledFourierSystem.forward` on a one-dimensional `s`. -/
noncomputable def coupledForwardTimes {dim n : ℕ} (p : FourierParams dim n) (l : Linear dim dim) (s : List ℝ) :
    Except PyErr (List (Fin dim → ℝ)) :=
  if s = [] then throw PyErr.runtimeError
  else pure ((s.foldl (fun sol s' => sol ++ [p.value s']) []).map l.forward)

/-- The parameters of `MatMulSystem` (systems.py:213-219): an input layer, four hidden layers, an output layer. The
arguments `activation` and `layers` of the constructor are not used by the code. -/
structure MatMulParams (dim hdim : ℕ) where
  input : Linear dim hdim
  hidden : Fin 4 → Linear hdim hdim
  output : Linear hdim dim

/-- `nn.Tanh`. -/
noncomputable def tanhLayer {n : ℕ} (x : Fin n → ℝ) : Fin n → ℝ := fun i => Real.tanh (x i)

/-- systems.py:221-222 `MatMulSystem.forward`, one sample. -/
noncomputable def matMulSystem {dim hdim : ℕ} (p : MatMulParams dim hdim) (x : Fin dim → ℝ) : Fin dim → ℝ :=
  let h := tanhLayer (p.input.forward x)
  let h := (List.finRange 4).foldl (fun h i => tanhLayer ((p.hidden i).forward h)) h
  p.output.forward h

/-- systems.py:239-240 `MatMulBoundedSystem.forward`, one sample: the same net followed by `nn.Tanh`. -/
noncomputable def matMulBoundedSystem {dim hdim : ℕ} (p : MatMulParams dim hdim) (x : Fin dim → ℝ) : Fin dim → ℝ :=
  tanhLayer (matMulSystem p x)

end Torchdyn
