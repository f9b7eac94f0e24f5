import Verif.Model.Py
import Mathlib.Analysis.Calculus.FDeriv.Basic
import Mathlib.LinearAlgebra.Matrix.NonsingularInverse
import Mathlib.Data.Matrix.Mul
import Mathlib.Data.Real.Basic
import Mathlib.Analysis.Normed.Module.FiniteDimension

/-!
Energy models, /repo/torchdyn/models/energy.py, and continuous normalizing flows, /repo/torchdyn/models/cnf.py.
Real arithmetic; a tensor of shape `(batch, d)` is a function on a finite batch type and `Fin d`. `torch.autograd.grad` is
the Fréchet derivative (exact differentiation). A column of zero weight such as `+ 0*x` (cnf.py:65) is dropped: over the
reals it has no effect. A network in whose graph the input does not occur at all makes `grad` raise; it is not modelled.
-/

namespace Torchdyn

/-- Tensors of shape `(batch, d)`. -/
abbrev RowBatch (B : Type) (d : Nat) := B → Fin d → ℝ

/-- The tensor with a single one at `(b, i)`. -/
def unitBatch {B : Type} [DecidableEq B] {d : Nat} (b : B) (i : Fin d) : RowBatch B d :=
  fun b' i' => if b' = b ∧ i' = i then 1 else 0

/-- `torch.autograd.grad(φ(x), x)[0]` for a scalar `φ(x)`. -/
noncomputable def autogradGrad {B : Type} [Fintype B] [DecidableEq B] {d : Nat} (φ : RowBatch B d → ℝ) (x : RowBatch B d) :
    RowBatch B d :=
  fun b i => fderiv ℝ φ x (unitBatch b i)

/-- `self.net(x).sum()`: the sum of all entries of the output, whatever its shape. -/
noncomputable def outputSum {X O : Type} [Fintype O] (net : X → O → ℝ) (x : X) : ℝ := ∑ o, net x o

section energy

variable {B O : Type} [Fintype B] [DecidableEq B] [Fintype O] {d : Nat}

/-- energy.py:57-62 `GNF.forward`: minus the gradient of the summed energy. -/
noncomputable def gnfForward (energy : RowBatch B d → O → ℝ) (x : RowBatch B d) : RowBatch B d :=
  fun b i => -autogradGrad (outputSum energy) x b i

/-- energy.py:75-80 `HNN.forward`: with `n = d // 2`, the columns `gradH[:, n:]` followed by `-gradH[:, :n]`. -/
noncomputable def hnnForward (net : RowBatch B d → O → ℝ) (x : RowBatch B d) : RowBatch B d :=
  let n := d / 2
  let gradH := autogradGrad (outputSum net) x
  fun b i =>
    if h : i.val < d - n then gradH b ⟨i.val + n, by omega⟩
    else -gradH b ⟨i.val - (d - n), by omega⟩

/-- The attributes of a `ConservativeLinearSNF`: those set by its constructor (energy.py:32-34) and its methods
(energy.py:36, 44). Attributes of `nn.Module` are not listed; none of them is called `H` or `_skew`. -/
def conservativeSnfAttrs : List String := ["energy", "J", "forward", "_generate_skew"]

/-- energy.py:36-42 `ConservativeLinearSNF.forward`: line 40 looks up `self.H`, line 41 `self._skew`; what would be computed
from them is `compute`. -/
def conservativeSnfForward {R : Type} (compute : R) : Except PyErr R := do
  if "H" ∉ conservativeSnfAttrs then throw .attributeError
  if "_skew" ∉ conservativeSnfAttrs then throw .attributeError
  pure compute

end energy

section lagrangian

variable {n : Nat}

/-- A state `(q, q̇)` of an LNN: `inl` are the columns `[:n]`, `inr` the columns `[n:]`. For an odd number of columns the
matrix product at energy.py:112 has mismatched sizes; only even numbers are modelled. -/
abbrev QQd (n : Nat) := Fin n ⊕ Fin n → ℝ

/-- energy.py:101, 107-108 `jacobian(self._lagrangian)` of one sample. -/
noncomputable def lnnJac (lag : QQd n → ℝ) (y : QQd n) (a : Fin n ⊕ Fin n) : ℝ := fderiv ℝ lag y (Pi.single a 1)

/-- energy.py:102 `hessian(self._lagrangian)` of one sample: entry `(a, b)` is the derivative along `b` of entry `a` of
the Jacobian. -/
noncomputable def lnnHess (lag : QQd n → ℝ) (y : QQd n) (a b : Fin n ⊕ Fin n) : ℝ :=
  fderiv ℝ (fun z => lnnJac lag z a) y (Pi.single b 1)

/-- energy.py:110-112 `_qdd`: `hess[n:, n:].pinverse() @ (jac[:n] - hess[n:, :n] @ qqd[n:])`. The pseudo-inverse is a
parameter. -/
noncomputable def lnnQdd (pinv : Matrix (Fin n) (Fin n) ℝ → Matrix (Fin n) (Fin n) ℝ) (lag : QQd n → ℝ) (y : QQd n) :
    Fin n → ℝ :=
  (pinv (Matrix.of fun i j => lnnHess lag y (.inr i) (.inr j))).mulVec
    (fun i => lnnJac lag y (.inl i) - ∑ j, lnnHess lag y (.inr i) (.inl j) * y (.inr j))

/-- energy.py:96-105 `LNN.forward` on one sample (the samples are treated one by one): `[q̇, q̈]`. -/
noncomputable def lnnForward (pinv : Matrix (Fin n) (Fin n) ℝ → Matrix (Fin n) (Fin n) ℝ) (lag : QQd n → ℝ)
    (y : QQd n) : QQd n :=
  Sum.elim (fun i => y (.inr i)) (lnnQdd pinv lag y)

end lagrangian

section cnf

variable {B : Type} [Fintype B] [DecidableEq B] {d : Nat}

/-- cnf.py:19-24 `autograd_trace`: `Σ_i grad(x_out[:, i].sum(), x_in)[:, i]`. -/
noncomputable def autogradTrace (net : RowBatch B d → RowBatch B d) (x : RowBatch B d) (b : B) : ℝ :=
  ∑ i, autogradGrad (fun y => ∑ b', net y b' i) x b i

/-- cnf.py:26-31 `hutch_trace`: `jvp = grad(x_out, x_in, noise)`, then the row-wise product with the noise. -/
noncomputable def hutchTrace (net : RowBatch B d → RowBatch B d) (noise : RowBatch B d) (x : RowBatch B d) (b : B) : ℝ :=
  ∑ i, autogradGrad (fun y => ∑ b', ∑ j, noise b' j * net y b' j) x b i * noise b i

/-- The trace estimators that cnf.py offers. -/
inductive TraceEst where
  | autograd
  | hutch
deriving DecidableEq

/-- A `CNF` module: cnf.py:49-53. -/
structure Cnf (B : Type) (d : Nat) where
  net : RowBatch B d → RowBatch B d
  est : TraceEst
  order : Nat
  noise : Option (RowBatch B d)

/-- cnf.py:36-53 `CNF.__init__`: the Hutchinson estimator needs a noise distribution. `noiseDist` is only tested for
presence; `noise` starts as `None` and is set by `NeuralODE._prep_integration` (see `Verif.Model.DEFunc`). -/
def Cnf.make (net : RowBatch B d → RowBatch B d) (est : Option TraceEst) (noiseDist : Bool) (order : Nat) :
    Except PyErr (Cnf B d) :=
  let est := est.getD .autograd
  if est = .hutch ∧ noiseDist = false then throw .assertionError
  else pure ⟨net, est, order, none⟩

/-- The input of the network: `x[:, 1:]`. -/
def dataCols (x : RowBatch B (d + 1)) : RowBatch B d := fun b i => x b i.succ

/-- cnf.py:55-65 `CNF.forward`. `self.higher_order` is not defined (`AttributeError` when `order > 1`). With no data
column `autograd_trace` returns the float `0.`, which cannot be indexed (`TypeError`). Without noise
`hutch_trace` asks for the gradient of a tensor without cotangent (`RuntimeError`; when the tensor has a single entry the
einsum with `None` fails instead). -/
noncomputable def Cnf.forward (c : Cnf B d) (x : RowBatch B (d + 1)) : Except PyErr (RowBatch B (d + 1)) := do
  let xIn := dataCols x
  if 1 < c.order then throw .attributeError
  let xOut := c.net xIn
  let trJ ← match c.est with
    | .autograd => if d = 0 then throw .typeError else pure (autogradTrace c.net xIn)
    | .hutch => match c.noise with
      | none => if Fintype.card B * d = 1 then throw .typeError else throw .runtimeError
      | some noise => pure (hutchTrace c.net noise xIn)
  pure (fun b => Fin.cons (-trJ b) (xOut b))

end cnf

end Torchdyn
