import Verif.Model.Layers

/-!
`GalConv2d`, /repo/torchdyn/nn/galerkin.py:229-273.
-/

namespace Torchdyn

variable {K : Type} [Field K]

/-- A batch of `R` images with `C` channels of `H` rows and `W` columns. -/
abbrev Images (K : Type) (R C H W : Nat) := Fin R → Fin C → Fin H → Fin W → K

/-- `padding=pad` of `conv2d`: the value at row `y`, column `x` counted from the corner of the padded image. -/
def paddedAt {H W : Nat} (img : Fin H → Fin W → K) (pad y x : Nat) : K :=
  if h : (pad ≤ y ∧ y - pad < H) ∧ (pad ≤ x ∧ x - pad < W) then img ⟨y - pad, h.1.2⟩ ⟨x - pad, h.2.2⟩ else 0

/-- The number of rows or columns of the output of `conv2d`. -/
def convSize (n pad ks stride : Nat) : Nat := (n + 2 * pad - ks) / stride + 1

/-- `torch.nn.functional.conv2d`: a `RuntimeError` for stride zero and for a kernel larger than the padded image. -/
def conv2d {R ic oc ks H W : Nat} (input : Images K R ic H W) (weight : Fin oc → Fin ic → Fin ks → Fin ks → K)
    (bias : Fin oc → K) (stride pad : Nat) :
    Except PyErr (Images K R oc (convSize H pad ks stride) (convSize W pad ks stride)) :=
  if stride = 0 ∨ H + 2 * pad < ks ∨ W + 2 * pad < ks then throw .runtimeError
  else pure (fun r o y x => (∑ i, ∑ a, ∑ b,
    paddedAt (input r i) pad (y.val * stride + a.val) (x.val * stride + b.val) * weight o i a b) + bias o)

/-- `GalConv2d` (galerkin.py:251-264). The coefficients have a last axis of length two whatever the expansion, and
`calculate_weights` reads the first `n_eig` entries of it. -/
structure GalConv2d (K : Type) (ic oc ks : Nat) where
  expfunc : ExpFunc K
  coeffs : Fin (oc * ic * ks ^ 2 + oc) → Fin expfunc.deg → Fin 2 → K
  dilation : K
  shift : K
  stride : Nat
  pad : Nat
  bias : Bool

/-- The position of `weight[o, i, a, b]` in the flat vector: `w[0:n].reshape(oc, ic, ks, ks)`. -/
def convIndex {oc ic ks : Nat} (o : Fin oc) (i : Fin ic) (a b : Fin ks) : Nat :=
  ((o.val * ic + i.val) * ks + a.val) * ks + b.val

theorem convIndex_lt {oc ic ks : Nat} (o : Fin oc) (i : Fin ic) (a b : Fin ks) :
    convIndex o i a b < oc * ic * ks ^ 2 := by
  have ho := o.isLt
  have hi := i.isLt
  have ha := a.isLt
  have hb := b.isLt
  have h1 : o.val * ic + i.val + 1 ≤ oc * ic := by
    have := Nat.mul_le_mul_right ic ho
    rw [Nat.succ_mul] at this
    omega
  have h2 : (o.val * ic + i.val) * ks + a.val + 1 ≤ oc * ic * ks := by
    have := Nat.mul_le_mul_right ks h1
    rw [Nat.succ_mul] at this
    omega
  have h3 := Nat.mul_le_mul_right ks h2
  rw [Nat.succ_mul] at h3
  have h4 : oc * ic * ks ^ 2 = oc * ic * ks * ks := by ring
  unfold convIndex
  omega

/-- galerkin.py:266-273 `GalConv2d.forward`. The depth is the first pixel of the last channel of the last image (an
`IndexError` without images or pixels); the last channel is dropped. An expansion with more than two functions is an
`IndexError` in `calculate_weights`. With `bias=False` assigning a tensor to the registered name is a `TypeError`, as in
`GalLinear`. -/
def GalConv2d.forward {ic oc ks : Nat} (g : GalConv2d K ic oc ks) {R H W : Nat} (input : Images K R (ic + 1) H W) :
    Except PyErr (Images K R oc (convSize H g.pad ks g.stride) (convSize W g.pad ks g.stride)) :=
  if h : 0 < R ∧ 0 < H ∧ 0 < W then do
    let t := input ⟨R - 1, by omega⟩ (Fin.last ic) ⟨0, h.2.1⟩ ⟨0, h.2.2⟩
    let x : Images K R ic H W := fun r i => input r i.castSucc
    if hn : g.expfunc.nEig ≤ 2 then do
      let layer : GalLayer K (oc * ic * ks ^ 2 + oc) :=
        ⟨g.expfunc, fun p d e => g.coeffs p d (e.castLE hn), g.dilation, g.shift⟩
      let w ← layer.calculateWeights t
      let weight : Fin oc → Fin ic → Fin ks → Fin ks → K := fun o i a b =>
        w ⟨convIndex o i a b, lt_of_lt_of_le (convIndex_lt o i a b) (Nat.le_add_right _ _)⟩
      let bias : Fin oc → K := fun o => w ⟨oc * ic * ks ^ 2 + o.val, by omega⟩
      if g.bias = false then throw .typeError
      conv2d x weight bias g.stride g.pad
    else throw .indexError
  else throw .indexError

end Torchdyn
