import Verif.Model.TracedGalerkin
import Verif.Props.Layers
import Mathlib.Analysis.SpecialFunctions.Pow.Deriv
import Mathlib.Analysis.SpecialFunctions.Sqrt
import Mathlib.Analysis.SpecialFunctions.Trigonometric.Deriv

/-!
C136: the gradients of Galerkin layers.
-/

namespace Spec

open Torchdyn

/-- The gradient recorded for a Galerkin layer with expansion `e`, whose graph is that of `eD`, is the right one at the argument `s₀`:
along every differentiable path of coefficients, dilation, shift and depth, each weight of the layer has the recorded derivative. -/
def GradientRight {deg n : Nat} (fwd : List ℝ → ℝ → Except PyErr (List (List ℝ)))
    (fwdD : List TracedScalar → TracedScalar → Except PyErr (List (List TracedScalar))) (s₀ : ℝ) : Prop :=
  ∀ (P : Nat) (c : ℝ → Fin P → Fin deg → Fin n → ℝ) (dil sh t : ℝ → ℝ) (c' : Fin P → Fin deg → Fin n → ℝ) (dil' sh' t' : ℝ) (ε : ℝ),
    t ε * dil ε + sh ε = s₀ → (∀ p d i, HasDerivAt (fun x => c x p d i) (c' p d i) ε) →
    HasDerivAt dil dil' ε → HasDerivAt sh sh' ε → HasDerivAt t t' ε →
    ∃ (W : ℝ → Fin P → ℝ) (w : Fin P → TracedScalar),
      (∀ x, (GalLayer.mk ⟨deg, n, fwd⟩ (c x) (dil x) (sh x)).calculateWeights (t x) = .ok (W x)) ∧
      tracedWeights ⟨deg, n, fwdD⟩ (fun p d i => onGraph (c ε p d i) (c' p d i)) (onGraph (dil ε) dil') (onGraph (sh ε) sh')
        (onGraph (t ε) t') = .ok w ∧
      ∀ p, (w p).fst = W ε p ∧ HasDerivAt (fun x => W x p) (w p).snd ε

end Spec

namespace Torchdyn

open TrivSqZeroExt

@[simp] theorem onGraph_fst (v d : ℝ) : (onGraph v d).fst = v := by simp [onGraph]

@[simp] theorem onGraph_snd (v d : ℝ) : (onGraph v d).snd = d := by simp [onGraph]

@[simp] theorem offGraph_fst (v : ℝ) : (offGraph v).fst = v := by simp [offGraph]

@[simp] theorem offGraph_snd (v : ℝ) : (offGraph v).snd = 0 := by simp [offGraph]

theorem traced_affine (t dil sh : TracedScalar) :
    t * dil + sh = onGraph (t.fst * dil.fst + sh.fst) (t.fst * dil.snd + dil.fst * t.snd + sh.snd) := by
  ext
  · simp
  · simp [mul_comm]

theorem traced_sum_fst {ι : Type} (s : Finset ι) (f : ι → TracedScalar) : (∑ i ∈ s, f i).fst = ∑ i ∈ s, (f i).fst :=
  map_sum (fstHom ℝ ℝ ℝ) f s

theorem traced_sum_snd {ι : Type} (s : Finset ι) (f : ι → TracedScalar) : (∑ i ∈ s, f i).snd = ∑ i ∈ s, (f i).snd :=
  map_sum (sndHom ℝ ℝ) f s

theorem tracedWeights_ofFn {P deg n : Nat} (fwdD : List TracedScalar → TracedScalar → Except PyErr (List (List TracedScalar)))
    (c : Fin P → Fin deg → Fin n → TracedScalar) (dil sh t : TracedScalar) (φ : Fin n → Fin deg → TracedScalar)
    (h : fwdD ((linspace0 (deg : ℝ) deg).map offGraph) (t * dil + sh) = .ok (List.ofFn (fun i => List.ofFn (φ i)))) :
    tracedWeights ⟨deg, n, fwdD⟩ c dil sh t = .ok (fun p => ∑ i, ∑ d, φ i d * c p d i) := by
  unfold tracedWeights
  simp only [h, bind, Except.bind, galWeights_ofFn]

/-- An expansion whose entries are `φ i d`, and whose graph records their derivatives, has right gradients. -/
theorem gradientRight_of {deg n : Nat} (fwd : List ℝ → ℝ → Except PyErr (List (List ℝ)))
    (fwdD : List TracedScalar → TracedScalar → Except PyErr (List (List TracedScalar))) (s₀ : ℝ)
    (φ : Fin n → Fin deg → ℝ → ℝ) (φ' : Fin n → Fin deg → ℝ) (hφ : ∀ i d, HasDerivAt (φ i d) (φ' i d) s₀)
    (hp : ∀ r, fwd (linspace0 (deg : ℝ) deg) r = .ok (List.ofFn (fun i => List.ofFn (fun d => φ i d r))))
    (ht : ∀ ds : ℝ, fwdD ((linspace0 (deg : ℝ) deg).map offGraph) (onGraph s₀ ds) =
      .ok (List.ofFn (fun i => List.ofFn (fun d => onGraph (φ i d s₀) (φ' i d * ds))))) :
    Spec.GradientRight (deg := deg) (n := n) fwd fwdD s₀ := by
  intro P c dil sh t c' dil' sh' t' ε hs hc hdil hsh htt
  refine ⟨fun x p => ∑ i, ∑ d, φ i d (t x * dil x + sh x) * c x p d i,
    fun p => ∑ i, ∑ d, onGraph (φ i d s₀) (φ' i d * (t ε * dil' + dil ε * t' + sh')) * onGraph (c ε p d i) (c' p d i), ?_, ?_, ?_⟩
  · intro x
    exact C64_weights (GalLayer.mk ⟨deg, n, fwd⟩ (c x) (dil x) (sh x)) (t x) (fun i d => φ i d (t x * dil x + sh x)) (hp _)
  · unfold tracedWeights
    have e : onGraph (t ε) t' * onGraph (dil ε) dil' + onGraph (sh ε) sh' = onGraph s₀ (t ε * dil' + dil ε * t' + sh') := by
      rw [traced_affine, ← hs]
      simp only [onGraph_fst, onGraph_snd]
    simp only [e, ht, bind, Except.bind, galWeights_ofFn]
  · intro p
    refine ⟨?_, ?_⟩
    · simp only [traced_sum_fst, fst_mul, hs, onGraph_fst]
    · simp only [traced_sum_snd]
      refine HasDerivAt.fun_sum fun i _ => HasDerivAt.fun_sum fun d _ => ?_
      have h1 : HasDerivAt (fun x => t x * dil x + sh x) (t' * dil ε + t ε * dil' + sh') ε := (htt.mul hdil).add hsh
      have h2 : HasDerivAt (fun x => φ i d (t x * dil x + sh x)) (φ' i d * (t' * dil ε + t ε * dil' + sh')) ε :=
        HasDerivAt.comp ε (h₂ := φ i d) (by rw [hs]; exact hφ i d) h1
      have h3 := h2.mul (hc p d i)
      rw [hs] at h3
      refine h3.congr_deriv ?_
      rw [snd_mul]
      simp only [onGraph_fst, onGraph_snd, smul_eq_mul, MulOpposite.smul_eq_mul_unop, MulOpposite.unop_op]
      ring

theorem linspace0_map_offGraph (deg : Nat) {β : Type} (g : TracedScalar → β) :
    ((linspace0 (deg : ℝ) deg).map offGraph).map g =
      List.ofFn (fun d : Fin deg => g (offGraph (d.val * (deg / ((deg : ℝ) - 1))))) := by
  rw [linspace0_eq_ofFn, List.map_ofFn, List.map_ofFn]
  rfl

theorem traced_mul_offGraph (s ds k : ℝ) : onGraph s ds * offGraph k = onGraph (s * k) (k * ds) := by
  ext
  · simp
  · simp [mul_comm]

/-- **C136**, `Fourier`, at every depth. -/
theorem C136_fourier_partial (deg : Nat) (s₀ : ℝ) :
    Spec.GradientRight (deg := deg) (n := 2) (fourier deg).forward (tracedFourier deg).forward s₀ := by
  refine gradientRight_of _ _ s₀
    (fun i d s => if i = 0 then Real.cos (s * (d.val * (deg / ((deg : ℝ) - 1)))) else Real.sin (s * (d.val * (deg / ((deg : ℝ) - 1)))))
    (fun i d => (if i = 0 then -Real.sin (s₀ * (d.val * (deg / ((deg : ℝ) - 1)))) else
      Real.cos (s₀ * (d.val * (deg / ((deg : ℝ) - 1))))) * (d.val * (deg / ((deg : ℝ) - 1)))) ?_ (C64_fourier deg) ?_
  · intro i d
    have h : HasDerivAt (fun s : ℝ => s * (d.val * (deg / ((deg : ℝ) - 1)))) (d.val * (deg / ((deg : ℝ) - 1))) s₀ := by
      simpa using (hasDerivAt_id s₀).mul_const ((d.val : ℝ) * (deg / ((deg : ℝ) - 1)))
    by_cases hi : i = 0
    · simpa [hi] using h.cos
    · simpa [hi] using h.sin
  · intro ds
    simp only [tracedFourier, linspace0_map_offGraph, pure, Except.pure, traced_mul_offGraph, tracedCos, tracedSin]
    simp [List.ofFn_succ, mul_assoc]

/-- Concretely, the derivative of a single weight `sin(2 t (1 + ε))` of a layer of degree two, as the dilation changes. -/
example : ∃ w, tracedWeights (tracedFourier 2) (fun (_ : Fin 1) (d i : Fin 2) => offGraph (if d = 1 ∧ i = 1 then 1 else 0)) (onGraph 1 1)
    (offGraph 0) (offGraph 3) = .ok w ∧ (w 0).snd = Real.cos (3 * 2) * 2 * 3 := by
  refine ⟨_, tracedWeights_ofFn (deg := 2) (n := 2) (tracedFourier 2).forward _ _ _ _ (fun i d => onGraph
    (if i = 0 then Real.cos (3 * (d.val * 2)) else Real.sin (3 * (d.val * 2)))
    ((if i = 0 then -Real.sin (3 * (d.val * 2)) else Real.cos (3 * (d.val * 2))) * (d.val * 2) * 3)) ?_, ?_⟩
  · have e : offGraph 3 * onGraph 1 1 + offGraph 0 = onGraph 3 3 := by
      rw [traced_affine]
      simp
    rw [e]
    simp only [tracedFourier, linspace0_map_offGraph, pure, Except.pure, traced_mul_offGraph, tracedCos, tracedSin]
    norm_num [List.ofFn_succ, mul_assoc]
  · simp [Fin.sum_univ_two]

/-- **C136**, `Polynomial`, where its argument is positive (the degrees are not integers, C78, and torch gives NaN at negative ones). -/
theorem C136_polynomial_partial (deg : Nat) (s₀ : ℝ) (hs : 0 < s₀) :
    Spec.GradientRight (deg := deg) (n := 1) (polynomialBasis deg).forward (tracedPolynomial deg).forward s₀ := by
  refine gradientRight_of _ _ s₀ (fun _ d s => s ^ ((d.val : ℝ) * (deg / ((deg : ℝ) - 1))))
    (fun _ d => ((d.val : ℝ) * (deg / ((deg : ℝ) - 1))) * s₀ ^ ((d.val : ℝ) * (deg / ((deg : ℝ) - 1)) - 1)) ?_ ?_ ?_
  · intro i d
    exact Real.hasDerivAt_rpow_const (Or.inl hs.ne')
  · intro r
    simp only [polynomialBasis, linspace0_eq_ofFn, List.map_ofFn, pure, Except.pure]
    simp [List.ofFn_succ, Function.comp_def]
  · intro ds
    simp only [tracedPolynomial, linspace0_map_offGraph, pure, Except.pure, tracedPow, onGraph_fst, onGraph_snd, offGraph_fst]
    rw [List.ofFn_succ, List.ofFn_zero]
    congr 3
    funext d
    congr 1
    split
    · rename_i h
      rw [h, zero_mul, zero_mul]
    · rfl

/-- The derivatives of the three profiles. -/
noncomputable def rbfProfileDeriv (kind : RbfKind) (x : ℝ) : ℝ :=
  match kind with
  | .gaussian => Real.exp (-x ^ 2) * -(2 * x)
  | .vanilla => 1
  | .multiquad => x / Real.sqrt (1 + x ^ 2)

theorem rbfProfile_hasDerivAt (kind : RbfKind) (x : ℝ) : HasDerivAt (rbfProfile kind) (rbfProfileDeriv kind x) x := by
  cases kind with
  | gaussian =>
    have h := (((hasDerivAt_id x).pow 2).neg).exp
    refine h.congr_deriv ?_
    simp [rbfProfileDeriv]
  | vanilla => exact hasDerivAt_id x
  | multiquad =>
    have h := ((((hasDerivAt_id x).pow 2).const_add 1).sqrt (by simp; positivity)).const_add 1
    refine h.congr_deriv ?_
    simp [rbfProfileDeriv]
    field_simp

/-- **C136**, the radial basis functions, away from their center `0`. -/
theorem C136_rbf_partial (kind : RbfKind) (deg : Nat) (eps centers s₀ : ℝ) (hs : s₀ ≠ 0) :
    Spec.GradientRight (deg := deg) (n := 1) (rbf kind deg false eps centers).forward (tracedRbf kind deg).forward s₀ := by
  have hr : HasDerivAt (fun s : ℝ => |s|) (s₀ / |s₀|) s₀ := by
    have h := ((hasDerivAt_id s₀).pow 2).sqrt (by simpa using hs)
    have e : (fun s : ℝ => |s|) = fun s : ℝ => Real.sqrt (s ^ 2) := by
      funext s
      rw [Real.sqrt_sq_eq_abs]
    rw [e]
    refine h.congr_deriv ?_
    simp [Real.sqrt_sq_eq_abs]
    field_simp
  have hn : ∀ ds, tracedNorm (onGraph s₀ ds - offGraph 0) = onGraph |s₀| (s₀ / |s₀| * ds) := by
    intro ds
    simp [tracedNorm, hs, Real.sqrt_sq_eq_abs]
  refine gradientRight_of _ _ s₀ (fun _ d s => rbfProfile kind (|s| * (d.val * (deg / ((deg : ℝ) - 1)) / 2)))
    (fun _ d => rbfProfileDeriv kind (|s₀| * (d.val * (deg / ((deg : ℝ) - 1)) / 2)) *
      (s₀ / |s₀| * (d.val * (deg / ((deg : ℝ) - 1)) / 2))) ?_ ?_ ?_
  · intro i d
    exact (rbfProfile_hasDerivAt kind _).comp s₀ (hr.mul_const _)
  · exact C79_fixed_rbf_partial kind deg eps centers
  · intro ds
    have hx : ∀ k : ℝ, onGraph |s₀| (s₀ / |s₀| * ds) * (offGraph k * offGraph (1 / 2)) =
        onGraph (|s₀| * (k / 2)) (s₀ / |s₀| * (k / 2) * ds) := by
      intro k
      have e : offGraph k * offGraph (1 / 2) = offGraph (k / 2) := by
        rw [offGraph, offGraph, offGraph, inl_mul_inl]
        congr 1
        ring
      rw [e, traced_mul_offGraph]
      congr 1
      ring
    cases kind with
    | gaussian =>
      simp only [tracedRbf, hn, linspace0_map_offGraph, List.map_ofFn, pure, Except.pure]
      rw [List.ofFn_succ, List.ofFn_zero]
      congr 3
      funext d
      have h0 : ∀ k : ℝ, offGraph k - offGraph 0 = offGraph k := by
        intro k
        simp [offGraph]
      simp only [Function.comp, h0, hx]
      ext
      · simp [tracedExp, rbfProfile]
      · simp [tracedExp, rbfProfileDeriv, pow_two]
        ring
    | vanilla =>
      simp only [tracedRbf, hn, linspace0_map_offGraph, List.map_ofFn, pure, Except.pure]
      rw [List.ofFn_succ, List.ofFn_zero]
      congr 3
      funext d
      simp only [Function.comp, hx]
      ext
      · simp [rbfProfile]
      · simp [rbfProfileDeriv]
    | multiquad =>
      simp only [tracedRbf, hn, linspace0_map_offGraph, List.map_ofFn, pure, Except.pure]
      rw [List.ofFn_succ, List.ofFn_zero]
      congr 3
      funext d
      simp only [Function.comp, hx]
      ext
      · simp [tracedSqrt, rbfProfile]
      · simp [tracedSqrt, rbfProfileDeriv, pow_two]
        field_simp
        ring

/-! ### Chebychev -/

/-- The values of the loop do not depend on the recorded derivatives. -/
theorem chebLoop_fst : ∀ (k : Nat) (s prev last : TracedScalar),
    (chebLoop s k prev last).map fst = chebLoop s.fst k prev.fst last.fst := by
  intro k
  induction k with
  | zero => intros; rfl
  | succ k ih =>
    intro s prev last
    simp only [chebLoop, List.map_cons, ih]
    have e : (last * (2 * s) - prev).fst = last.fst * (2 * s.fst) - prev.fst := by
      rw [fst_sub, fst_mul, fst_mul]
      rfl
    rw [e]

theorem tracedChebychev_forward (toNat : ℝ → Nat) (hz : toNat 0 = 0) (deg : Nat) (hdeg : 1 ≤ deg) (ht : toNat (deg : ℝ) = deg)
    (s : TracedScalar) :
    (tracedChebychev toNat deg).forward ((linspace0 (deg : ℝ) deg).map offGraph) s =
      .ok (List.ofFn (fun _ : Fin 1 => List.ofFn (fun d : Fin deg => offGraph ((Polynomial.Chebyshev.T ℝ (d.val : ℤ)).eval s.fst)))) := by
  have h := C65_layer_partial toNat hz deg hdeg ht s.fst
  simp only [chebychev, chebForward, bind, Except.bind, pure, Except.pure, getLastItem] at h
  simp only [tracedChebychev, bind, Except.bind, pure, Except.pure, getLastItem, List.getLast?_map]
  cases hl : (linspace0 (deg : ℝ) deg).getLast? with
  | none =>
    rw [hl] at h
    cases h
  | some last =>
    rw [hl] at h
    simp only [Option.map_some, offGraph_fst] at h ⊢
    rw [List.ofFn_succ, List.ofFn_zero]
    have e : (List.range deg).map (fun k : ℕ => (Polynomial.Chebyshev.T ℝ (k : ℤ)).eval s.fst) =
        List.ofFn (fun k : Fin deg => (Polynomial.Chebyshev.T ℝ (k.val : ℤ)).eval s.fst) := by
      rw [List.ofFn_eq_map, ← List.map_coe_finRange_eq_range, List.map_map]
      rfl
    rw [e] at h
    have hm : ∀ l : List TracedScalar, l.map (fun x => offGraph x.fst) = (l.map fst).map offGraph := by
      intro l
      rw [List.map_map]
      rfl
    have ho : (List.ofFn fun d : Fin deg => offGraph ((Polynomial.Chebyshev.T ℝ (d.val : ℤ)).eval s.fst)) =
        (List.ofFn fun d : Fin deg => (Polynomial.Chebyshev.T ℝ (d.val : ℤ)).eval s.fst).map offGraph := by
      rw [List.map_ofFn]
      rfl
    rw [ho, hm]
    split at h
    · rename_i h0
      rw [if_pos h0]
      simp only [List.map_cons, chebLoop_fst, fst_one, offGraph_fst] at h ⊢
      injection h with h
      injection h with h
      rw [← h]
      rfl
    · rename_i h0
      rw [if_neg h0]
      injection h with h
      injection h with h
      rw [← h]
      rfl

/-- **C136**, what holds of `Chebychev`: the recorded derivative is right with respect to the coefficients; it contains nothing of the
derivatives of dilation, shift and depth. -/
theorem C136_chebychev_partial (toNat : ℝ → Nat) (hz : toNat 0 = 0) (deg : Nat) (hdeg : 1 ≤ deg) (ht : toNat (deg : ℝ) = deg)
    {P : Nat} (c : ℝ → Fin P → Fin deg → Fin 1 → ℝ) (c' : Fin P → Fin deg → Fin 1 → ℝ) (ε : ℝ)
    (hc : ∀ p d i, HasDerivAt (fun x => c x p d i) (c' p d i) ε) (dil sh t : TracedScalar) :
    ∃ (W : ℝ → Fin P → ℝ) (w : Fin P → TracedScalar),
      (∀ x, (GalLayer.mk (chebychev toNat deg) (c x) dil.fst sh.fst).calculateWeights t.fst = .ok (W x)) ∧
      tracedWeights (tracedChebychev toNat deg) (fun p d i => onGraph (c ε p d i) (c' p d i)) dil sh t = .ok w ∧
      ∀ p, (w p).fst = W ε p ∧ HasDerivAt (fun x => W x p) (w p).snd ε := by
  refine ⟨fun x p => ∑ d : Fin deg, (Polynomial.Chebyshev.T ℝ (d.val : ℤ)).eval (t.fst * dil.fst + sh.fst) * c x p d 0,
    fun p => ∑ i : Fin 1, ∑ d : Fin deg, offGraph ((Polynomial.Chebyshev.T ℝ (d.val : ℤ)).eval (t.fst * dil.fst + sh.fst)) *
      onGraph (c ε p d i) (c' p d i), ?_, ?_, ?_⟩
  · intro x
    exact C65_weights_partial toNat hz deg hdeg ht (c x) dil.fst sh.fst t.fst
  · have h := tracedChebychev_forward toNat hz deg hdeg ht (t * dil + sh)
    rw [show (t * dil + sh).fst = t.fst * dil.fst + sh.fst by simp] at h
    exact tracedWeights_ofFn _ _ _ _ _ _ h
  · intro p
    refine ⟨?_, ?_⟩
    · simp [traced_sum_fst]
    · simp only [traced_sum_snd, Fin.sum_univ_one]
      refine HasDerivAt.fun_sum fun d _ => ?_
      refine ((hc p d 0).const_mul _).congr_deriv ?_
      simp

/-- **C136 is false** of `Chebychev`: for every degree of at least two and at every argument the recorded gradient is wrong; `dilation`
and `shift` receive none, although the weights depend on them. -/
theorem C136_chebychev_refuted (toNat : ℝ → Nat) (hz : toNat 0 = 0) (deg : Nat) (hdeg : 2 ≤ deg) (ht : toNat (deg : ℝ) = deg)
    (s₀ : ℝ) :
    ¬ Spec.GradientRight (deg := deg) (n := 1) (chebychev toNat deg).forward (tracedChebychev toNat deg).forward s₀ := by
  intro h
  obtain ⟨W, w, hW, hw, hp⟩ := h 1 (fun _ _ d _ => if d.val = 1 then 1 else 0) (fun _ => 0) (fun x => x) (fun _ => 0)
    (fun _ _ _ => 0) 0 1 0 s₀ (by simp) (fun _ _ _ => hasDerivAt_const _ _) (hasDerivAt_const _ _) (hasDerivAt_id _)
    (hasDerivAt_const _ _)
  obtain ⟨W', w', hW', hw', hp'⟩ := C136_chebychev_partial toNat hz deg (by omega) ht (P := 1)
    (fun _ _ d _ => if d.val = 1 then 1 else 0) (fun _ _ _ => 0) s₀ (fun _ _ _ => hasDerivAt_const _ _)
    (onGraph 0 0) (onGraph s₀ 1) (onGraph 0 0)
  have e : w = w' := by
    have := hw.symm.trans hw'
    injection this
  have hWx : ∀ x, W x 0 = x := by
    intro x
    have h1 := (hW x).symm.trans (C65_weights_partial toNat hz deg (by omega) ht (P := 1)
      (fun _ d _ => if d.val = 1 then 1 else 0) 0 x 0)
    injection h1 with h1
    rw [h1]
    rw [Finset.sum_eq_single (⟨1, by omega⟩ : Fin deg)]
    · simp
    · intro b _ hb
      rw [if_neg, mul_zero]
      intro hb1
      exact hb (Fin.ext hb1)
    · simp
  have hW'x : ∀ x, W' x = W' s₀ := by
    intro x
    have := (hW' x).symm.trans (hW' s₀)
    injection this
  have d1 := (hp 0).2
  have d2 := (hp' 0).2
  rw [e] at d1
  rw [show (fun x => W x 0) = fun x => x from funext hWx] at d1
  rw [show (fun x => W' x 0) = fun _ => W' s₀ 0 from funext (fun x => by rw [hW'x x])] at d2
  have u1 := d1.unique (hasDerivAt_id s₀)
  have u2 := d2.unique (hasDerivAt_const s₀ (W' s₀ 0))
  rw [u1] at u2
  exact one_ne_zero u2

/-- Non-vacuity: the integer part meets the hypotheses on `.int().item()`, for every degree. -/
example : Nat.floor (0 : ℝ) = 0 ∧ ∀ deg : ℕ, Nat.floor (deg : ℝ) = deg := ⟨Nat.floor_zero, Nat.floor_natCast⟩

/-- Of degree one the expansion is constant. -/
theorem C136_chebychev_one_partial (toNat : ℝ → Nat) (hz : toNat 0 = 0) (h1 : toNat 1 = 1) (s₀ : ℝ) :
    Spec.GradientRight (deg := 1) (n := 1) (chebychev toNat 1).forward (tracedChebychev toNat 1).forward s₀ := by
  have ht : toNat ((1 : ℕ) : ℝ) = 1 := by simpa using h1
  refine gradientRight_of _ _ s₀ (fun _ _ _ => 1) (fun _ _ => 0) (fun _ _ => hasDerivAt_const _ _) ?_ ?_
  · intro r
    refine (C65_layer_partial toNat hz 1 le_rfl ht r).trans ?_
    simp
  · intro ds
    refine (tracedChebychev_forward toNat hz 1 le_rfl ht _).trans ?_
    simp [offGraph, onGraph]

/-- **C136**, for every expansion: in a layer as it is initialised, with coefficients zero, only the coefficients receive a gradient:
along a path that leaves them fixed every weight has the recorded derivative zero. -/
theorem C136_init {P : Nat} (e : ExpFunc TracedScalar) (dil sh t : TracedScalar) (w : Fin P → TracedScalar)
    (hw : tracedWeights e (fun _ _ _ => offGraph 0) dil sh t = .ok w) : ∀ p, w p = offGraph 0 := by
  intro p
  unfold tracedWeights at hw
  simp only [bind, Except.bind, galWeights, pure, Except.pure] at hw
  split at hw
  · cases hw
  · split at hw
    · cases hw
    · injection hw with hw
      rw [← hw]
      simp [Matrix.mul_apply, offGraph]

end Torchdyn
