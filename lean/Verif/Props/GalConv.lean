import Verif.Model.GalConv
import Verif.Props.Layers

/-!
Property C95: the convolutional Galerkin layer.
-/

namespace Torchdyn

variable {K : Type} [Field K] {ic oc ks : Nat}

/-- The weights of the layer at a depth, for an expansion with values `φ` there: `Σ_e Σ_d φ e d * coeffs[p, d, e]`. -/
def galExpansion {P deg n : Nat} (coeffs : Fin P → Fin deg → Fin 2 → K) (hn : n ≤ 2) (φ : Fin n → Fin deg → K)
    (p : Fin P) : K := ∑ e, ∑ d, φ e d * coeffs p d (e.castLE hn)

/-- An image continued by zero outside of its frame. -/
def zeroExtended {H W : Nat} (img : Fin H → Fin W → K) (y x : ℤ) : K :=
  if h : (0 ≤ y ∧ y.toNat < H) ∧ (0 ≤ x ∧ x.toNat < W) then img ⟨y.toNat, h.1.2⟩ ⟨x.toNat, h.2.2⟩ else 0

theorem paddedAt_eq {H W : Nat} (img : Fin H → Fin W → K) (pad y x : Nat) :
    paddedAt img pad y x = zeroExtended img ((y : ℤ) - pad) ((x : ℤ) - pad) := by
  unfold paddedAt zeroExtended
  by_cases h : (pad ≤ y ∧ y - pad < H) ∧ (pad ≤ x ∧ x - pad < W)
  · rw [dif_pos h, dif_pos (by omega)]
    congr 2 <;> omega
  · rw [dif_neg h, dif_neg (by omega)]

/-- The positions of `weight[o, i, a, b]` and of `bias[o]` in the flat list of weights, in the order of `reshape`. -/
theorem C95_index_bounds (o : Fin oc) (i : Fin ic) (a b : Fin ks) :
    ((o.val * ic + i.val) * ks + a.val) * ks + b.val < oc * ic * ks ^ 2 + oc ∧
      oc * ic * ks ^ 2 + o.val < oc * ic * ks ^ 2 + oc :=
  ⟨lt_of_lt_of_le (convIndex_lt o i a b) (Nat.le_add_right _ _), by omega⟩

/-- **C95.** The forward pass of `GalConv2d`: the convolution of the data channels with the kernel and the bias that the
expansion gives at the depth found in the last channel of the last image. -/
theorem C95_forward (g : GalConv2d K ic oc ks) (hb : g.bias = true) (hn : g.expfunc.nEig ≤ 2) {R H W : Nat}
    (input : Images K (R + 1) (ic + 1) (H + 1) (W + 1)) (hs : 0 < g.stride) (hH : ks ≤ H + 1 + 2 * g.pad)
    (hW : ks ≤ W + 1 + 2 * g.pad) (φ : Fin g.expfunc.nEig → Fin g.expfunc.deg → K)
    (hφ : g.expfunc.forward (linspace0 (g.expfunc.deg : K) g.expfunc.deg)
      (input (Fin.last R) (Fin.last ic) 0 0 * g.dilation + g.shift) = .ok (List.ofFn (fun i => List.ofFn (φ i)))) :
    ∃ out, g.forward input = .ok out ∧ ∀ r o y x,
      out r o y x = (∑ i : Fin ic, ∑ a : Fin ks, ∑ b : Fin ks,
        zeroExtended (input r i.castSucc) ((y.val : ℤ) * g.stride + a.val - g.pad)
            ((x.val : ℤ) * g.stride + b.val - g.pad) *
          galExpansion g.coeffs hn φ ⟨((o.val * ic + i.val) * ks + a.val) * ks + b.val, (C95_index_bounds o i a b).1⟩) +
        galExpansion g.coeffs hn φ ⟨oc * ic * ks ^ 2 + o.val, by omega⟩ := by
  have hw := C64_weights (⟨g.expfunc, fun p d e => g.coeffs p d (e.castLE hn), g.dilation, g.shift⟩ :
    GalLayer K (oc * ic * ks ^ 2 + oc)) (input (Fin.last R) (Fin.last ic) 0 0) φ hφ
  unfold GalConv2d.forward
  rw [dif_pos ⟨by omega, by omega, by omega⟩, dif_pos hn]
  have e : GalLayer.calculateWeights (⟨g.expfunc, fun p d e => g.coeffs p d (e.castLE hn), g.dilation, g.shift⟩ :
    GalLayer K (oc * ic * ks ^ 2 + oc)) (input ⟨R + 1 - 1, by omega⟩ (Fin.last ic) ⟨0, by omega⟩ ⟨0, by omega⟩) = _ := hw
  have hc : ¬(g.stride = 0 ∨ H + 1 + 2 * g.pad < ks ∨ W + 1 + 2 * g.pad < ks) := by omega
  simp only [e, bind, Except.bind, hb, Bool.true_eq_false, if_false, conv2d, if_neg hc, pure, Except.pure]
  refine ⟨_, rfl, fun r o y x => ?_⟩
  simp only [paddedAt_eq, Nat.cast_add, Nat.cast_mul]
  rfl

/-- Non-vacuity: two images of a data channel and a depth channel, kernels of size two, the Fourier basis. -/
example (c : Fin 5 → Fin 3 → Fin 2 → ℝ) (input : Images ℝ 2 2 4 4) :
    ∃ out, (⟨fourier 3, c, 1, 0, 1, 0, true⟩ : GalConv2d ℝ 1 1 2).forward input = .ok out :=
  have h := C95_forward (⟨fourier 3, c, 1, 0, 1, 0, true⟩ : GalConv2d ℝ 1 1 2) rfl le_rfl input (by simp) (by simp)
    (by simp) _ (C64_fourier 3 _)
  ⟨h.choose, h.choose_spec.1⟩

/-- **C95**, the size of the output: it has a row (or column) `r` exactly when the window starting at `r * stride` fits into
the image with its padding on both sides. -/
theorem C95_size (n pad ks stride : Nat) (hs : 0 < stride) (hk : ks ≤ n + 2 * pad) (r : Nat) :
    r < convSize n pad ks stride ↔ r * stride + ks ≤ n + 2 * pad := by
  rw [convSize, Nat.lt_succ_iff, Nat.le_div_iff_mul_le hs]
  omega

/-- Kernels of size three with padding one keep the size of the image; without padding the image shrinks by two. -/
example (n : Nat) : convSize (n + 1) 1 3 1 = n + 1 ∧ convSize (n + 3) 0 3 1 = n + 1 := by
  simp [convSize]

/-- **C95.** Translation covariance: without padding, at stride one, the output of the layer on a window of larger images
(with the same depth) is the window of its output on the whole images. -/
theorem C95_translation (g : GalConv2d K ic oc ks) (hb : g.bias = true) (hn : g.expfunc.nEig ≤ 2) (hs : g.stride = 1)
    (hp : g.pad = 0) {R H W H' W' : Nat} (input : Images K (R + 1) (ic + 1) (H + 1) (W + 1))
    (input' : Images K (R + 1) (ic + 1) (H' + 1) (W' + 1)) (dy dx : Nat) (hy : H' + dy ≤ H) (hx : W' + dx ≤ W)
    (hwin : ∀ r c (y : Fin (H' + 1)) (x : Fin (W' + 1)),
      input' r c y x = input r c ⟨y.val + dy, by omega⟩ ⟨x.val + dx, by omega⟩)
    (hdepth : input (Fin.last R) (Fin.last ic) 0 0 = input' (Fin.last R) (Fin.last ic) 0 0)
    (hkH : ks ≤ H' + 1) (hkW : ks ≤ W' + 1) (φ : Fin g.expfunc.nEig → Fin g.expfunc.deg → K)
    (hφ : g.expfunc.forward (linspace0 (g.expfunc.deg : K) g.expfunc.deg)
      (input (Fin.last R) (Fin.last ic) 0 0 * g.dilation + g.shift) = .ok (List.ofFn (fun i => List.ofFn (φ i)))) :
    ∃ out out', g.forward input = .ok out ∧ g.forward input' = .ok out' ∧ ∀ r o y x (hyy : _) (hxx : _),
      out' r o y x = out r o ⟨y.val + dy, hyy⟩ ⟨x.val + dx, hxx⟩ := by
  obtain ⟨out, h, hout⟩ := C95_forward g hb hn input (by omega) (by omega) (by omega) φ hφ
  obtain ⟨out', h', hout'⟩ := C95_forward g hb hn input' (by omega) (by omega) (by omega) φ (hdepth ▸ hφ)
  refine ⟨out, out', h, h', fun r o y x hyy hxx => ?_⟩
  rw [hout, hout']
  congr 1
  refine Finset.sum_congr rfl fun i _ => Finset.sum_congr rfl fun a _ => Finset.sum_congr rfl fun b _ => ?_
  congr 1
  have hy1 := y.isLt
  have hx1 := x.isLt
  simp only [convSize, hs, hp, Nat.div_one] at hy1 hx1
  simp only [zeroExtended, hs, hp, Nat.cast_one, mul_one, Nat.cast_zero, sub_zero]
  have ha := a.isLt
  have hb' := b.isLt
  rw [dif_pos ⟨by omega, by omega⟩, dif_pos ⟨by omega, by omega⟩, hwin]
  congr 2 <;> (simp; try omega)

/-- **C95.** A freshly initialised layer outputs zero. -/
theorem C95_init_zero (g : GalConv2d K ic oc ks) (h0 : ∀ p d e, g.coeffs p d e = 0) (hb : g.bias = true)
    (hn : g.expfunc.nEig ≤ 2) {R H W : Nat} (input : Images K (R + 1) (ic + 1) (H + 1) (W + 1)) (hs : 0 < g.stride)
    (hH : ks ≤ H + 1 + 2 * g.pad) (hW : ks ≤ W + 1 + 2 * g.pad) (φ : Fin g.expfunc.nEig → Fin g.expfunc.deg → K)
    (hφ : g.expfunc.forward (linspace0 (g.expfunc.deg : K) g.expfunc.deg)
      (input (Fin.last R) (Fin.last ic) 0 0 * g.dilation + g.shift) = .ok (List.ofFn (fun i => List.ofFn (φ i)))) :
    g.forward input = .ok (fun _ _ _ _ => 0) := by
  obtain ⟨out, h, hout⟩ := C95_forward g hb hn input hs hH hW φ hφ
  rw [h]
  congr 1
  funext r o y x
  rw [hout]
  simp [galExpansion, h0]

/-- **C95.** An expansion with a single function (`Polynomial`, `Chebychev`, the radial basis functions) leaves half of
the parameters without effect: the layer does not depend on `coeffs[:, :, 1]`. -/
theorem C95_half_unused (g : GalConv2d K ic oc ks) (c : Fin (oc * ic * ks ^ 2 + oc) → Fin g.expfunc.deg → Fin 2 → K)
    (h1 : g.expfunc.nEig = 1) (hc : ∀ p d, c p d 0 = g.coeffs p d 0) {R H W : Nat} (input : Images K R (ic + 1) H W) :
    ({ g with coeffs := c } : GalConv2d K ic oc ks).forward input = g.forward input := by
  unfold GalConv2d.forward
  by_cases h : 0 < R ∧ 0 < H ∧ 0 < W
  · rw [dif_pos h, dif_pos h]
    have hn : g.expfunc.nEig ≤ 2 := by omega
    have e : (fun p d (e : Fin g.expfunc.nEig) => c p d (e.castLE hn)) = fun p d e => g.coeffs p d (e.castLE hn) := by
      funext p d e
      have : (e.castLE hn : Fin 2) = 0 := by
        ext
        have := e.isLt
        simp
        omega
      rw [this, hc]
    simp only [hn, dif_pos, e]
  · rw [dif_neg h, dif_neg h]

/-- **C95**, error branches: `bias=False` raises `TypeError` on every input on which the expansion returns; an empty batch
raises `IndexError`; a kernel larger than the padded image raises `RuntimeError`. -/
theorem C95_errors (g : GalConv2d K ic oc ks) {R H W : Nat} :
    (∀ input : Images K 0 (ic + 1) H W, g.forward input = .error .indexError) ∧
    ∀ (_hn : g.expfunc.nEig ≤ 2) (input : Images K (R + 1) (ic + 1) (H + 1) (W + 1))
      (φ : Fin g.expfunc.nEig → Fin g.expfunc.deg → K)
      (_hφ : g.expfunc.forward (linspace0 (g.expfunc.deg : K) g.expfunc.deg)
        (input (Fin.last R) (Fin.last ic) 0 0 * g.dilation + g.shift) = .ok (List.ofFn (fun i => List.ofFn (φ i)))),
      (g.bias = false → g.forward input = .error .typeError) ∧
      (g.bias = true → (H + 1 + 2 * g.pad < ks ∨ W + 1 + 2 * g.pad < ks) → g.forward input = .error .runtimeError) := by
  refine ⟨fun input => ?_, fun hn input φ hφ => ?_⟩
  · unfold GalConv2d.forward
    rw [dif_neg (by omega)]
    rfl
  · have e : GalLayer.calculateWeights (⟨g.expfunc, fun p d e => g.coeffs p d (e.castLE hn), g.dilation, g.shift⟩ :
      GalLayer K (oc * ic * ks ^ 2 + oc)) (input ⟨R + 1 - 1, by omega⟩ (Fin.last ic) ⟨0, by omega⟩ ⟨0, by omega⟩) = _ :=
      C64_weights (⟨g.expfunc, fun p d e => g.coeffs p d (e.castLE hn), g.dilation, g.shift⟩ :
        GalLayer K (oc * ic * ks ^ 2 + oc)) (input (Fin.last R) (Fin.last ic) 0 0) φ hφ
    refine ⟨fun hb => ?_, fun hb hk => ?_⟩
    · unfold GalConv2d.forward
      rw [dif_pos ⟨by omega, by omega, by omega⟩, dif_pos hn]
      simp only [e, bind, Except.bind, hb, if_true]
      rfl
    · unfold GalConv2d.forward
      rw [dif_pos ⟨by omega, by omega, by omega⟩, dif_pos hn]
      simp only [e, bind, Except.bind, hb, Bool.true_eq_false, if_false, conv2d, if_pos (Or.inr hk)]
      rfl

end Torchdyn
