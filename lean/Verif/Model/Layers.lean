import Verif.Model.Py
import Verif.Model.MultipleShooting
import Mathlib.Analysis.SpecialFunctions.Pow.Real
import Mathlib.Analysis.SpecialFunctions.Trigonometric.Basic
import Mathlib.Analysis.SpecialFunctions.Exp
import Mathlib.Analysis.Real.Sqrt
import Mathlib.Data.Matrix.Mul

/-!
Layers: /repo/torchdyn/nn/node_layers.py and /repo/torchdyn/nn/galerkin.py.
-/

namespace Torchdyn

/-! ### node_layers.py

A tensor is the list of its slices along the dimension of concatenation (`augment_idx`, `idx_cat`, or 1); `C` is the type of
slices. -/

section nodeLayers

variable {C : Type}

/-- node_layers.py:29-32 `Augmenter`. -/
structure Augmenter (C : Type) where
  augmentDims : Nat
  augmentFunc : Option (List C → List C)
  order : String

/-- node_layers.py:34-54 `Augmenter.forward`. The truth value of `augment_func` is taken to be whether it is given (an empty
`nn.Sequential` would count as absent). -/
def Augmenter.forward [Zero C] (a : Augmenter C) (x : List C) : List C :=
  match a.augmentFunc with
  | none =>
    if a.order = "first" then List.replicate a.augmentDims 0 ++ x else x ++ List.replicate a.augmentDims 0
  | some g => if a.order = "first" then g x ++ x else x ++ g x

/-- node_layers.py:67-71 `DepthCat.forward`; `fill t` is the slice with all entries `t`. `None * tensor` is a
`TypeError`. -/
def depthCatForward {K : Type} (fill : K → C) (t : Option K) (x : List C) : Except PyErr (List C) :=
  match t with
  | none => throw .typeError
  | some t => pure (x ++ [fill t])

/-- node_layers.py:81-82 `DataControl.forward`; `torch.cat([x, None])` is a `TypeError`. -/
def dataControlForward (control : Option (List C)) (x : List C) : Except PyErr (List C) :=
  match control with
  | none => throw .typeError
  | some u => pure (x ++ u)

end nodeLayers

/-! ### galerkin.py -/

/-- Elementwise operation on 1-d tensors with broadcasting: equal lengths, or one of them has length one. -/
def broadcast2 {α β γ : Type} (op : α → β → γ) (a : List α) (b : List β) : Except PyErr (List γ) :=
  if a.length = b.length then pure (List.zipWith op a b)
  else match a, b with
    | [x], b => pure (b.map (op x))
    | a, [y] => pure (a.map (fun x => op x y))
    | _, _ => throw .runtimeError

/-- An eigenbasis expansion module: `deg`, `n_eig` and `forward(n_range, s)`. -/
structure ExpFunc (K : Type) where
  deg : Nat
  nEig : Nat
  forward : List K → K → Except PyErr (List (List K))

/-- galerkin.py:159-160: `for i in range(2, max_order): basis += [basis[-1] * s2 - basis[-2]]`, with the last two entries
as arguments. -/
def chebLoop {K : Type} [CommRing K] (s : K) : Nat → K → K → List K
  | 0, _, _ => []
  | k + 1, prev, last => let new := last * (2 * s) - prev; new :: chebLoop s k last new

/-- galerkin.py:152-161 `Chebychev.forward`; `toNat` is `.int().item()`. -/
def chebForward {K : Type} [Field K] (toNat : K → Nat) (nRange : List K) (s : K) : Except PyErr (List (List K)) := do
  let last ← getLastItem nRange
  let maxOrder := toNat last
  if 0 < maxOrder then pure [1 :: s :: chebLoop s (maxOrder - 2) 1 s] else pure [[1]]

/-- galerkin.py:140-161 `Chebychev`. -/
def chebychev {K : Type} [Field K] (toNat : K → Nat) (deg : Nat) : ExpFunc K := ⟨deg, 1, chebForward toNat⟩

/-- galerkin.py:105-120 `Fourier`. -/
noncomputable def fourier (deg : Nat) : ExpFunc ℝ :=
  ⟨deg, 2, fun nRange s => pure [nRange.map (fun k => Real.cos (s * k)), nRange.map (fun k => Real.sin (s * k))]⟩

/-- galerkin.py:123-137 `Polynomial`; `s ** n_range` on floats, over the reals (for negative `s` and fractional exponents torch
gives NaN). -/
noncomputable def polynomialBasis (deg : Nat) : ExpFunc ℝ :=
  ⟨deg, 1, fun nRange s => pure [nRange.map (fun k => s ^ k)]⟩

/-- The parameters of the radial basis functions, galerkin.py:33-38, 62-67, 91-96: `deg + 1` centers and scales when `adaptive`, the
scalars `0` and `2` otherwise (the arguments `eps_scales` and `centers` are ignored then). -/
structure RbfParams where
  centers : List ℝ
  epsScales : List ℝ

/-- See `RbfParams`. A scalar is a tensor of length one. -/
noncomputable def RbfParams.make (deg : Nat) (adaptive : Bool) (epsScales centers : ℝ) : RbfParams :=
  if adaptive then ⟨List.replicate (deg + 1) centers, List.replicate (deg + 1) epsScales⟩ else ⟨[0], [2]⟩

/-- `torch.norm(s - centers, p=2)` for `s` with one entry. -/
noncomputable def rbfRadius (p : RbfParams) (s : ℝ) : ℝ := Real.sqrt ((p.centers.map (fun c => (s - c) ^ 2)).sum)

/-- galerkin.py:40-44 `GaussianRBF.forward`. -/
noncomputable def gaussianForward (p : RbfParams) (nRange : List ℝ) (s : ℝ) : Except PyErr (List (List ℝ)) := do
  let shifted ← broadcast2 (· - ·) nRange p.centers
  let scaled ← broadcast2 (· / ·) shifted p.epsScales
  let r := rbfRadius p s
  pure [scaled.map (fun n => Real.exp (-(r * n) ^ 2))]

/-- galerkin.py:69-73 `VanillaRBF.forward`. -/
noncomputable def vanillaForward (p : RbfParams) (nRange : List ℝ) (s : ℝ) : Except PyErr (List (List ℝ)) := do
  let scaled ← broadcast2 (· / ·) nRange p.epsScales
  let r := rbfRadius p s
  pure [scaled.map (fun n => r * n)]

/-- galerkin.py:98-102 `MultiquadRBF.forward`. -/
noncomputable def multiquadForward (p : RbfParams) (nRange : List ℝ) (s : ℝ) : Except PyErr (List (List ℝ)) := do
  let scaled ← broadcast2 (· / ·) nRange p.epsScales
  let r := rbfRadius p s
  pure [scaled.map (fun n => 1 + Real.sqrt (1 + (r * n) ^ 2))]

/-- The three radial basis function classes. -/
inductive RbfKind where
  | gaussian
  | vanilla
  | multiquad

/-- galerkin.py:18-102: the radial basis function modules. -/
noncomputable def rbf (kind : RbfKind) (deg : Nat) (adaptive : Bool) (epsScales centers : ℝ) : ExpFunc ℝ :=
  let p := RbfParams.make deg adaptive epsScales centers
  ⟨deg, 1, match kind with
    | .gaussian => gaussianForward p
    | .vanilla => vanillaForward p
    | .multiquad => multiquadForward p⟩

section galWeights

variable {K : Type} [CommRing K]

/-- `Bin[range(deg), range(deg)] = basis`: the diagonal of a `deg × deg` matrix set to a tensor of `deg` entries or of one;
other lengths do not broadcast (`RuntimeError`). The off-diagonal entries are those of `torch.eye`. -/
def diagBlock (deg : Nat) (basis : List K) : Except PyErr (Matrix (Fin deg) (Fin deg) K) :=
  if h : basis.length = deg then
    pure (Matrix.of fun r c => if r = c then basis.get (c.cast h.symm) else 0)
  else match basis with
    | [v] => pure (Matrix.of fun r c => if r = c then v else 0)
    | _ => throw .runtimeError

/-- galerkin.py:181-185: the blocks, one for each eigenfunction; too few entries in `basis` is an `IndexError`. -/
def diagBlocks (deg : Nat) (basis : List (List K)) : (nEig : Nat) → Except PyErr (Fin nEig → Matrix (Fin deg) (Fin deg) K)
  | 0 => pure Fin.elim0
  | n + 1 => do
    let init ← diagBlocks deg basis n
    let b ← getItem basis n
    let blk ← diagBlock deg b
    pure (Fin.snoc (α := fun _ => Matrix (Fin deg) (Fin deg) K) init blk)

/-- galerkin.py:180-189, the part of `calculate_weights` after the basis: the matrix `B` of diagonal blocks side by side, times the
transposed concatenation of the coefficients, summed over rows. -/
def galWeights {P : Nat} (deg nEig : Nat) (basis : List (List K)) (coeffs : Fin P → Fin deg → Fin nEig → K) :
    Except PyErr (Fin P → K) := do
  let blocks ← diagBlocks deg basis nEig
  let B : Matrix (Fin deg) (Fin nEig × Fin deg) K := Matrix.of fun r c => blocks c.1 r c.2
  let C : Matrix (Fin nEig × Fin deg) (Fin P) K := Matrix.of fun c p => coeffs p c.2 c.1
  let X := B * C
  pure (fun p => ∑ r, X r p)

end galWeights

section galLayer

variable {K : Type} [Field K]

/-- A Galerkin layer: `P` numbers of weights, expansion, coefficients `coeffs[p, d, i]`, `dilation` and `shift`. -/
structure GalLayer (K : Type) (P : Nat) where
  expfunc : ExpFunc K
  coeffs : Fin P → Fin expfunc.deg → Fin expfunc.nEig → K
  dilation : K
  shift : K

/-- galerkin.py:177-189 `calculate_weights`: `n_range = linspace(0, deg, deg)`, the basis at `t * dilation + shift`, and the weights
of `galWeights`. -/
def GalLayer.calculateWeights {P : Nat} (l : GalLayer K P) (t : K) : Except PyErr (Fin P → K) := do
  let nRange := linspace0 (l.expfunc.deg : K) l.expfunc.deg
  let basis ← l.expfunc.forward nRange (t * l.dilation + l.shift)
  galWeights l.expfunc.deg l.expfunc.nEig basis l.coeffs

/-- galerkin.py:168-175: `reset_parameters` and the constructor's initial values. -/
def GalLayer.init (expfunc : ExpFunc K) (P : Nat) : GalLayer K P := ⟨expfunc, fun _ _ _ => 0, 1, 0⟩

/-- galerkin.py:207-226 `GalLinear`, for inputs with the announced number of columns plus the depth column (other widths
are a `RuntimeError` of `linear`, not modelled). -/
structure GalLinear (K : Type) (inF outF : Nat) where
  layer : GalLayer K ((inF + 1) * outF)
  bias : Bool

/-- galerkin.py:219-226 `GalLinear.forward`. The depth is read from the last row and column; an empty batch is an
`IndexError`. With `bias=False` the name `bias` is a registered parameter, to which line 225 assigns a plain tensor:
`nn.Module.__setattr__` raises `TypeError`. -/
def GalLinear.forward {inF outF : Nat} (g : GalLinear K inF outF) {R : Nat} (input : Fin R → Fin (inF + 1) → K) :
    Except PyErr (Fin R → Fin outF → K) :=
  match R, input with
  | 0, _ => throw .indexError
  | R + 1, input => do
    let t := input (Fin.last R) (Fin.last inF)
    let x : Fin (R + 1) → Fin inF → K := fun r c => input r c.castSucc
    let w ← g.layer.calculateWeights t
    let weight : Fin outF → Fin inF → K := fun o i => w ⟨o.val * inF + i.val, by
      have h1 := o.isLt
      have h2 := i.isLt
      have : o.val * inF + inF ≤ outF * inF := by
        have := Nat.mul_le_mul_right inF h1
        rwa [Nat.succ_mul] at this
      rw [Nat.add_mul, Nat.mul_comm inF]
      omega⟩
    let bias : Fin outF → K := fun o => w ⟨inF * outF + o.val, by
      have := o.isLt
      rw [Nat.add_mul]
      omega⟩
    if g.bias = false then throw .typeError
    pure (fun r o => ∑ i, x r i * weight o i + bias o)

end galLayer

end Torchdyn
