import Verif.Props.SdeStrong
import Mathlib.Probability.Moments.MGFAnalytic

/-!
C124: the orders of the SDE solvers (`/repo/torchdyn/numerics/solvers/sde.py:19-104`) on the linear equation
`dX = a X dt + b X dW`, whose solution is known in closed form.
-/

set_option linter.unusedSectionVars false

namespace Torchdyn

open Spec MeasureTheory ProbabilityTheory

/-! ### Moments of a Gaussian increment -/

section gaussian

open scoped NNReal

theorem gauss_pow_exp_integrable (v : ℝ≥0) (t : ℝ) (n : ℕ) : Integrable (fun x : ℝ => x ^ n * Real.exp (t * x)) (gaussianReal 0 v) :=
  integrable_pow_mul_exp_of_mem_interior_integrableExpSet (X := fun x : ℝ => x) (by simp) n

theorem gauss_deriv (v : ℝ≥0) (t : ℝ) (n : ℕ) :
    HasDerivAt (fun t => ∫ x, x ^ n * Real.exp (t * x) ∂gaussianReal 0 v) (∫ x, x ^ (n + 1) * Real.exp (t * x) ∂gaussianReal 0 v) t :=
  hasDerivAt_integral_pow_mul_exp_real (X := fun x : ℝ => x) (by simp) n

/-- `E[Zⁿ exp (t Z)]` for `n ≤ 4`, `Z` of variance `v`. -/
theorem gauss_pow_exp (v : ℝ≥0) (t : ℝ) :
    (∫ x, Real.exp (t * x) ∂gaussianReal 0 v = Real.exp (v * t ^ 2 / 2)) ∧
    (∫ x, x * Real.exp (t * x) ∂gaussianReal 0 v = v * t * Real.exp (v * t ^ 2 / 2)) ∧
    (∫ x, x ^ 2 * Real.exp (t * x) ∂gaussianReal 0 v = (v + v ^ 2 * t ^ 2) * Real.exp (v * t ^ 2 / 2)) ∧
    (∫ x, x ^ 3 * Real.exp (t * x) ∂gaussianReal 0 v = (3 * v ^ 2 * t + v ^ 3 * t ^ 3) * Real.exp (v * t ^ 2 / 2)) ∧
    (∫ x, x ^ 4 * Real.exp (t * x) ∂gaussianReal 0 v = (3 * v ^ 2 + 6 * v ^ 3 * t ^ 2 + v ^ 4 * t ^ 4) * Real.exp (v * t ^ 2 / 2)) := by
  have hE : ∀ t : ℝ, HasDerivAt (fun t => Real.exp (v * t ^ 2 / 2)) (v * t * Real.exp (v * t ^ 2 / 2)) t := by
    intro t
    have h1 : HasDerivAt (fun t : ℝ => (v : ℝ) * t ^ 2 / 2) (v * t) t := by
      have := ((hasDerivAt_pow 2 t).const_mul (v : ℝ)).div_const 2
      exact this.congr_deriv (by push_cast; ring)
    exact h1.exp.congr_deriv (by ring)
  have h0 : ∀ t, ∫ x, Real.exp (t * x) ∂gaussianReal 0 v = Real.exp (v * t ^ 2 / 2) := by
    intro t
    have := congrFun (mgf_fun_id_gaussianReal (μ := 0) (v := v)) t
    simpa [mgf] using this
  have step : ∀ (n : ℕ) (q : ℝ → ℝ) (q' : ℝ → ℝ), (∀ t, HasDerivAt q (q' t) t) →
      (∀ t, ∫ x, x ^ n * Real.exp (t * x) ∂gaussianReal 0 v = q t * Real.exp (v * t ^ 2 / 2)) →
      ∀ t, ∫ x, x ^ (n + 1) * Real.exp (t * x) ∂gaussianReal 0 v = (q' t + q t * (v * t)) * Real.exp (v * t ^ 2 / 2) := by
    intro n q q' hq h t
    have h1 := gauss_deriv v t n
    rw [show (fun t => ∫ x, x ^ n * Real.exp (t * x) ∂gaussianReal 0 v) = fun t => q t * Real.exp (v * t ^ 2 / 2) from funext h] at h1
    rw [h1.unique ((hq t).mul (hE t))]
    ring
  have m0 : ∀ t : ℝ, ∫ x, x ^ 0 * Real.exp (t * x) ∂gaussianReal 0 v = (fun _ => (1 : ℝ)) t * Real.exp (v * t ^ 2 / 2) := by
    intro t; simpa using h0 t
  have m1 := step 0 _ (fun _ => 0) (fun t => hasDerivAt_const t 1) m0
  have m1' : ∀ t : ℝ, ∫ x, x ^ 1 * Real.exp (t * x) ∂gaussianReal 0 v = (fun t => (v : ℝ) * t) t * Real.exp (v * t ^ 2 / 2) := by
    intro t; rw [m1 t]; simp
  have m2 := step 1 _ (fun _ => v) (fun t => by simpa using (hasDerivAt_id t).const_mul (v : ℝ)) m1'
  have m2' : ∀ t : ℝ, ∫ x, x ^ 2 * Real.exp (t * x) ∂gaussianReal 0 v = (fun t => (v : ℝ) + v ^ 2 * t ^ 2) t * Real.exp (v * t ^ 2 / 2) := by
    intro t; rw [m2 t]; simp only; ring
  have m3 := step 2 _ (fun t => v ^ 2 * (2 * t)) (fun t => by
    simpa using ((hasDerivAt_pow 2 t).const_mul ((v : ℝ) ^ 2)).const_add (v : ℝ)) m2'
  have m3' : ∀ t : ℝ, ∫ x, x ^ 3 * Real.exp (t * x) ∂gaussianReal 0 v =
      (fun t => 3 * (v : ℝ) ^ 2 * t + v ^ 3 * t ^ 3) t * Real.exp (v * t ^ 2 / 2) := by
    intro t; rw [m3 t]; simp only; ring
  have m4 := step 3 _ (fun t => 3 * v ^ 2 + v ^ 3 * (3 * t ^ 2)) (fun t => by
    have h1 := (hasDerivAt_id t).const_mul (3 * (v : ℝ) ^ 2)
    have h2 := (hasDerivAt_pow 3 t).const_mul ((v : ℝ) ^ 3)
    simpa using h1.fun_add h2) m3'
  refine ⟨h0 t, by simpa using m1' t, m2' t, m3' t, ?_⟩
  rw [m4 t]
  ring

/-- The second moment of `p + q Z + r Z²`, its mixed moment with `exp (c + q Z)` and the second moment of the latter. -/
theorem gauss_factor (v : ℝ≥0) (p q r c : ℝ) :
    (Integrable (fun x : ℝ => (p + q * x + r * x ^ 2) ^ 2) (gaussianReal 0 v) ∧
      ∫ x, (p + q * x + r * x ^ 2) ^ 2 ∂gaussianReal 0 v = p ^ 2 + 2 * p * r * v + q ^ 2 * v + 3 * r ^ 2 * v ^ 2) ∧
    (Integrable (fun x : ℝ => (p + q * x + r * x ^ 2) * Real.exp (c + q * x)) (gaussianReal 0 v) ∧
      ∫ x, (p + q * x + r * x ^ 2) * Real.exp (c + q * x) ∂gaussianReal 0 v =
        Real.exp (c + q ^ 2 / 2 * v) * (p + q ^ 2 * v + r * (v + q ^ 2 * v ^ 2))) ∧
    (Integrable (fun x : ℝ => Real.exp (c + q * x) ^ 2) (gaussianReal 0 v) ∧
      ∫ x, Real.exp (c + q * x) ^ 2 ∂gaussianReal 0 v = Real.exp (2 * c + 2 * q ^ 2 * v)) := by
  have ip : ∀ n : ℕ, Integrable (fun x : ℝ => x ^ n) (gaussianReal 0 v) := fun n => by
    simpa using gauss_pow_exp_integrable v 0 n
  obtain ⟨-, -, z2, z3, z4⟩ := gauss_pow_exp v 0
  simp only [zero_mul, Real.exp_zero, mul_one] at z2 z3 z4
  norm_num at z2 z3 z4
  have z1 : ∫ x : ℝ, x ∂gaussianReal 0 v = 0 := integral_id_gaussianReal
  obtain ⟨e0, e1, e2, -, -⟩ := gauss_pow_exp v q
  have x0 : Integrable (fun x : ℝ => Real.exp (q * x)) (gaussianReal 0 v) := by simpa using gauss_pow_exp_integrable v q 0
  have x1 : Integrable (fun x : ℝ => x * Real.exp (q * x)) (gaussianReal 0 v) := by simpa using gauss_pow_exp_integrable v q 1
  have x2 := gauss_pow_exp_integrable v q 2
  have i1 : Integrable (fun x : ℝ => x) (gaussianReal 0 v) := by simpa using ip 1
  refine ⟨?_, ?_, ?_⟩
  · have e : (fun x : ℝ => (p + q * x + r * x ^ 2) ^ 2) = fun x => p ^ 2 + (2 * p * q) * x + (2 * p * r + q ^ 2) * x ^ 2 +
        (2 * q * r) * x ^ 3 + r ^ 2 * x ^ 4 := by funext x; ring
    have j1 := (integrable_const (μ := gaussianReal 0 v) (p ^ 2)).add (i1.const_mul (2 * p * q))
    have j2 := j1.add ((ip 2).const_mul (2 * p * r + q ^ 2))
    have j3 := j2.add ((ip 3).const_mul (2 * q * r))
    have j4 := j3.add ((ip 4).const_mul (r ^ 2))
    rw [e]
    refine ⟨j4, ?_⟩
    have := integral_add j3 ((ip 4).const_mul (r ^ 2))
    simp only [Pi.add_apply] at this
    rw [this]
    have := integral_add j2 ((ip 3).const_mul (2 * q * r))
    simp only [Pi.add_apply] at this
    rw [this]
    have := integral_add j1 ((ip 2).const_mul (2 * p * r + q ^ 2))
    simp only [Pi.add_apply] at this
    rw [this]
    rw [integral_add (integrable_const _) (i1.const_mul _)]
    have z1' : ∫ x : ℝ, 2 * p * q * x ∂gaussianReal 0 v = 0 := by rw [integral_const_mul, z1, mul_zero]
    simp only [z1', integral_const_mul, integral_const, probReal_univ, one_smul, z2, z3, z4]
    ring
  · have e : (fun x : ℝ => (p + q * x + r * x ^ 2) * Real.exp (c + q * x)) = fun x => Real.exp c * p * Real.exp (q * x) +
        Real.exp c * q * (x * Real.exp (q * x)) + Real.exp c * r * (x ^ 2 * Real.exp (q * x)) := by
      funext x; rw [Real.exp_add]; ring
    have j1 := (x0.const_mul (Real.exp c * p)).add (x1.const_mul (Real.exp c * q))
    have j2 := j1.add (x2.const_mul (Real.exp c * r))
    rw [e]
    refine ⟨j2, ?_⟩
    have := integral_add j1 (x2.const_mul (Real.exp c * r))
    simp only [Pi.add_apply] at this
    rw [this, integral_add (x0.const_mul _) (x1.const_mul _)]
    simp only [integral_const_mul, e0, e1, e2]
    rw [Real.exp_add, show (v : ℝ) * q ^ 2 / 2 = q ^ 2 / 2 * v by ring]
    ring
  · have e : (fun x : ℝ => Real.exp (c + q * x) ^ 2) = fun x => Real.exp (2 * c) * Real.exp ((2 * q) * x) := by
      funext x
      rw [← Real.exp_nat_mul, ← Real.exp_add]
      congr 1
      push_cast
      ring
    have x0' : Integrable (fun x : ℝ => Real.exp ((2 * q) * x)) (gaussianReal 0 v) := by
      simpa using gauss_pow_exp_integrable v (2 * q) 0
    rw [e]
    refine ⟨x0'.const_mul _, ?_⟩
    rw [integral_const_mul, (gauss_pow_exp v (2 * q)).1, ← Real.exp_add]
    congr 1
    ring

end gaussian

/-! ### Moments of the run and of the solution -/

section moments

variable {Ω : Type} [MeasurableSpace Ω] {ι : Type} [Fintype ι] {P : Measure Ω} [IsProbabilityMeasure P] {W : Ω → ℝ → ι → ℝ}
  {τ : ℕ → ℝ}

/-- The increments of `W` over the steps `[τ k, τ (k+1)]` are those of a Brownian motion: independent, and each component normal with
mean zero and the length of the step as variance. -/
structure GaussianSteps (P : Measure Ω) (W : Ω → ℝ → ι → ℝ) (τ : ℕ → ℝ) : Prop where
  meas : ∀ k, Measurable fun ω => W ω (τ (k + 1)) - W ω (τ k)
  indep : iIndepFun (fun (k : ℕ) ω => W ω (τ (k + 1)) - W ω (τ k)) P
  law : ∀ k i, P.map (fun ω => W ω (τ (k + 1)) i - W ω (τ k) i) = gaussianReal 0 (τ (k + 1) - τ k).toNNReal

theorem GaussianSteps.preserving (hW : GaussianSteps P W τ) (k : ℕ) (i : ι) :
    MeasurePreserving (fun ω => W ω (τ (k + 1)) i - W ω (τ k) i) P (gaussianReal 0 (τ (k + 1) - τ k).toNNReal) :=
  ⟨(measurable_pi_apply i).comp (hW.meas k), hW.law k i⟩

theorem GaussianSteps.brownian (hW : GaussianSteps P W τ) (hτ : StrictMono τ) : BrownianSteps P W τ where
  meas := hW.meas
  indep := hW.indep
  memLp k i := (memLp_id_gaussianReal 2).comp_measurePreserving (hW.preserving k i)
  mean k i := by
    have := integral_map (μ := P) (φ := fun ω => W ω (τ (k + 1)) i - W ω (τ k) i) (f := fun x : ℝ => x)
      (hW.preserving k i).measurable.aemeasurable measurable_id.aestronglyMeasurable
    rw [← this, (hW.preserving k i).map_eq, integral_id_gaussianReal]
  var k i := gaussian_second (sub_nonneg.2 (hτ (Nat.lt_succ_self k)).le) (hW.preserving k i)

/-- The mean of a product of functions of the increments. -/
theorem prod_mean (hW : BrownianSteps P W τ) (i : ι) {φ : ℕ → ℝ → ℝ} (hφ : ∀ k, Measurable (φ k)) {m : ℕ → ℝ}
    (hint : ∀ k, Integrable (fun ω => φ k (W ω (τ (k + 1)) i - W ω (τ k) i)) P)
    (hm : ∀ k, ∫ ω, φ k (W ω (τ (k + 1)) i - W ω (τ k) i) ∂P = m k) {Z : ℕ → Ω → ℝ} {z0 : ℝ} (hz : ∀ ω, Z 0 ω = z0)
    (hZ : ∀ k ω, Z (k + 1) ω = Z k ω * φ k (W ω (τ (k + 1)) i - W ω (τ k) i)) (k : ℕ) :
    Measurable[pastOf W τ k] (Z k) ∧ Integrable (Z k) P ∧ ∫ ω, Z k ω ∂P = (∏ j ∈ Finset.range k, m j) * z0 := by
  induction k with
  | zero =>
    have e : Z 0 = fun _ => z0 := funext hz
    rw [e]
    exact ⟨measurable_const, integrable_const _, by simp⟩
  | succ k ih =>
    obtain ⟨h1, h2, h3⟩ := ih
    have hinc : Measurable[pastOf W τ (k + 1)] fun ω => W ω (τ (k + 1)) i - W ω (τ k) i :=
      (measurable_pi_apply i).comp (increment_past k)
    have e : Z (k + 1) = fun ω => Z k ω * φ k (W ω (τ (k + 1)) i - W ω (τ k) i) := funext (hZ k)
    have ind : IndepFun (Z k) (fun ω => φ k (W ω (τ (k + 1)) i - W ω (τ k) i)) P :=
      (past_indep hW h1 i).comp (φ := id) measurable_id (hφ k)
    rw [e]
    refine ⟨(h1.mono (pastOf_mono k) le_rfl).mul ((hφ k).comp hinc), ind.integrable_mul h2 (hint k), ?_⟩
    rw [ind.integral_fun_mul_eq_mul_integral h2.aestronglyMeasurable (hint k).aestronglyMeasurable, h3, hm, Finset.prod_range_succ]
    ring

/-- `E[A²]` for the factor `A = p + q ΔW + r ΔW²` of a step. -/
noncomputable def runFactor (p q r h : ℝ) : ℝ := p ^ 2 + 2 * p * r * h + q ^ 2 * h + 3 * r ^ 2 * h ^ 2

/-- `E[A B]` for the factor `B = exp ((μ - q²/2) h + q ΔW)` of the solution. -/
noncomputable def mixFactor (μ p q r h : ℝ) : ℝ := Real.exp (μ * h) * (p + q ^ 2 * h + r * (h + q ^ 2 * h ^ 2))

/-- `E[B²]`. -/
noncomputable def solFactor (μ q h : ℝ) : ℝ := Real.exp ((2 * μ + q ^ 2) * h)

/-- `exp ((μ - b²/2) (t - t0) + b (W t - W t0)) x0`. -/
noncomputable def expSolution (W : Ω → ℝ → ι → ℝ) (t0 : ℝ) (μ b x0 : ι → ℝ) (ω : Ω) (t : ℝ) : ι → ℝ := fun i =>
  Real.exp ((μ i - b i ^ 2 / 2) * (t - t0) + b i * (W ω t i - W ω t0 i)) * x0 i

theorem expSolution_succ (W : Ω → ℝ → ι → ℝ) (τ : ℕ → ℝ) (μ b x0 : ι → ℝ) (ω : Ω) (k : ℕ) (i : ι) :
    expSolution W (τ 0) μ b x0 ω (τ (k + 1)) i = expSolution W (τ 0) μ b x0 ω (τ k) i *
      Real.exp ((μ i - b i ^ 2 / 2) * (τ (k + 1) - τ k) + b i * (W ω (τ (k + 1)) i - W ω (τ k) i)) := by
  unfold expSolution
  rw [mul_right_comm, ← Real.exp_add]
  congr 2
  ring

/-- The mean-square error of a run, and the mean error, in closed form. -/
theorem linear_error (hW : GaussianSteps P W τ) (hτ : StrictMono τ) (p r : ℕ → ι → ℝ) (μ b x0 : ι → ℝ) (k : ℕ) (i : ι) :
    (∫ ω, (quadState W τ p (fun _ => b) r x0 ω k i - expSolution W (τ 0) μ b x0 ω (τ k) i) ^ 2 ∂P =
      ((∏ j ∈ Finset.range k, runFactor (p j i) (b i) (r j i) (τ (j + 1) - τ j)) -
        2 * (∏ j ∈ Finset.range k, mixFactor (μ i) (p j i) (b i) (r j i) (τ (j + 1) - τ j)) +
        ∏ j ∈ Finset.range k, solFactor (μ i) (b i) (τ (j + 1) - τ j)) * x0 i ^ 2) ∧
    (∫ ω, expSolution W (τ 0) μ b x0 ω (τ k) i ∂P = (∏ j ∈ Finset.range k, Real.exp (μ i * (τ (j + 1) - τ j))) * x0 i) ∧
    Integrable (fun ω => quadState W τ p (fun _ => b) r x0 ω k i ^ 2) P ∧
    Integrable (fun ω => expSolution W (τ 0) μ b x0 ω (τ k) i ^ 2) P := by
  have hB := hW.brownian hτ
  have hpos : ∀ j, 0 ≤ τ (j + 1) - τ j := fun j => sub_nonneg.2 (hτ (Nat.lt_succ_self j)).le
  -- means over an increment are means over the normal law
  have tr : ∀ (j : ℕ) (φ : ℝ → ℝ) (hφ : Measurable φ) (M : ℝ), Integrable φ (gaussianReal 0 (τ (j + 1) - τ j).toNNReal) ∧
      ∫ x, φ x ∂gaussianReal 0 (τ (j + 1) - τ j).toNNReal = M →
      Integrable (fun ω => φ (W ω (τ (j + 1)) i - W ω (τ j) i)) P ∧ ∫ ω, φ (W ω (τ (j + 1)) i - W ω (τ j) i) ∂P = M := by
    intro j φ hφ M h
    have hp := hW.preserving j i
    refine ⟨(hp.integrable_comp hφ.aestronglyMeasurable).2 h.1, ?_⟩
    have := integral_map (μ := P) (φ := fun ω => W ω (τ (j + 1)) i - W ω (τ j) i) (f := φ) hp.measurable.aemeasurable
      hφ.aestronglyMeasurable
    rw [← this, hp.map_eq, h.2]
  have gf := fun j => gauss_factor (τ (j + 1) - τ j).toNNReal (p j i) (b i) (r j i) ((μ i - b i ^ 2 / 2) * (τ (j + 1) - τ j))
  simp only [fun j => Real.coe_toNNReal _ (hpos j)] at gf
  have tA := fun j => tr j _ (by fun_prop) _ (gf j).1
  have tC := fun j => tr j _ (by fun_prop) _ (gf j).2.1
  have tB := fun j => tr j _ (by fun_prop) _ (gf j).2.2
  have tE := fun j => tr j (fun x => Real.exp ((μ i - b i ^ 2 / 2) * (τ (j + 1) - τ j) + b i * x)) (by fun_prop)
    (Real.exp (μ i * (τ (j + 1) - τ j))) (by
      have e : (fun x : ℝ => Real.exp ((μ i - b i ^ 2 / 2) * (τ (j + 1) - τ j) + b i * x)) = fun x =>
          Real.exp ((μ i - b i ^ 2 / 2) * (τ (j + 1) - τ j)) * Real.exp (b i * x) := by funext x; rw [Real.exp_add]
      have x0 : Integrable (fun x : ℝ => Real.exp (b i * x)) (gaussianReal 0 (τ (j + 1) - τ j).toNNReal) := by
        simpa using gauss_pow_exp_integrable (τ (j + 1) - τ j).toNNReal (b i) 0
      rw [e]
      refine ⟨x0.const_mul _, ?_⟩
      rw [integral_const_mul, (gauss_pow_exp _ (b i)).1, ← Real.exp_add, Real.coe_toNNReal _ (hpos j)]
      congr 1
      ring)
  have hX : ∀ k ω, quadState W τ p (fun _ => b) r x0 ω (k + 1) i = quadState W τ p (fun _ => b) r x0 ω k i *
      (p k i + b i * (W ω (τ (k + 1)) i - W ω (τ k) i) + r k i * (W ω (τ (k + 1)) i - W ω (τ k) i) ^ 2) := fun k ω => rfl
  have hY := fun k ω => expSolution_succ W τ μ b x0 ω k i
  have y0 : ∀ ω, expSolution W (τ 0) μ b x0 ω (τ 0) i = x0 i := fun ω => by simp [expSolution]
  have rA := prod_mean hB i (φ := fun j x => (p j i + b i * x + r j i * x ^ 2) ^ 2) (fun j => by fun_prop)
    (fun j => (tA j).1) (fun j => (tA j).2) (Z := fun k ω => quadState W τ p (fun _ => b) r x0 ω k i ^ 2) (z0 := x0 i ^ 2)
    (fun ω => rfl) (fun k ω => by rw [hX]; ring) k
  have rC := prod_mean hB i (φ := fun j x => (p j i + b i * x + r j i * x ^ 2) *
      Real.exp ((μ i - b i ^ 2 / 2) * (τ (j + 1) - τ j) + b i * x)) (fun j => by fun_prop)
    (fun j => (tC j).1) (fun j => (tC j).2)
    (Z := fun k ω => quadState W τ p (fun _ => b) r x0 ω k i * expSolution W (τ 0) μ b x0 ω (τ k) i) (z0 := x0 i ^ 2)
    (fun ω => by simp only [y0]; show x0 i * x0 i = _; ring) (fun k ω => by rw [hX, hY]; ring) k
  have rB := prod_mean hB i (φ := fun j x => Real.exp ((μ i - b i ^ 2 / 2) * (τ (j + 1) - τ j) + b i * x) ^ 2)
    (fun j => by fun_prop) (fun j => (tB j).1) (fun j => (tB j).2)
    (Z := fun k ω => expSolution W (τ 0) μ b x0 ω (τ k) i ^ 2) (z0 := x0 i ^ 2)
    (fun ω => by simp only [y0]) (fun k ω => by rw [hY]; ring) k
  have rE := prod_mean hB i (φ := fun j x => Real.exp ((μ i - b i ^ 2 / 2) * (τ (j + 1) - τ j) + b i * x))
    (fun j => by fun_prop) (fun j => (tE j).1) (fun j => (tE j).2)
    (Z := fun k ω => expSolution W (τ 0) μ b x0 ω (τ k) i) (z0 := x0 i) y0 hY k
  refine ⟨?_, rE.2.2, rA.2.1, rB.2.1⟩
  have e : (fun ω => (quadState W τ p (fun _ => b) r x0 ω k i - expSolution W (τ 0) μ b x0 ω (τ k) i) ^ 2) = fun ω =>
      quadState W τ p (fun _ => b) r x0 ω k i ^ 2 -
      2 * (quadState W τ p (fun _ => b) r x0 ω k i * expSolution W (τ 0) μ b x0 ω (τ k) i) +
      expSolution W (τ 0) μ b x0 ω (τ k) i ^ 2 := by funext ω; ring
  have i1 : Integrable (fun ω => quadState W τ p (fun _ => b) r x0 ω k i ^ 2 -
      2 * (quadState W τ p (fun _ => b) r x0 ω k i * expSolution W (τ 0) μ b x0 ω (τ k) i)) P := rA.2.1.sub (rC.2.1.const_mul 2)
  rw [e, integral_add i1 rB.2.1, integral_sub rA.2.1 (rC.2.1.const_mul 2), integral_const_mul,
    rA.2.2, rC.2.2, rB.2.2]
  have e1 : ∀ j, Real.exp ((μ i - b i ^ 2 / 2) * (τ (j + 1) - τ j) + b i ^ 2 / 2 * (τ (j + 1) - τ j)) =
      Real.exp (μ i * (τ (j + 1) - τ j)) := fun j => by congr 1; ring
  have e2 : ∀ j, Real.exp (2 * ((μ i - b i ^ 2 / 2) * (τ (j + 1) - τ j)) + 2 * b i ^ 2 * (τ (j + 1) - τ j)) =
      Real.exp ((2 * μ i + b i ^ 2) * (τ (j + 1) - τ j)) := fun j => by congr 1; ring
  simp only [e1, e2, runFactor, mixFactor, solFactor]
  ring

theorem expSolution_measurable (hW : BrownianSteps P W τ) (μ b x0 : ι → ℝ) (k : ℕ) (i : ι) :
    Measurable fun ω => expSolution W (τ 0) μ b x0 ω (τ k) i := by
  induction k with
  | zero => simp only [expSolution, sub_self, mul_zero, add_zero]; exact measurable_const
  | succ k ih =>
    simp only [expSolution_succ]
    have h1 : Measurable fun ω => W ω (τ (k + 1)) i - W ω (τ k) i := (measurable_pi_apply i).comp (hW.meas k)
    exact ih.mul (Real.measurable_exp.comp ((h1.const_mul (b i)).const_add _))

end moments

/-! ### How far the factors are apart -/

section factors

theorem bounded_on_box {Q : ℝ × ℝ × ℝ → ℝ} (hQ : Continuous Q) (R : ℝ) :
    ∃ K, 0 ≤ K ∧ ∀ s u v, 0 ≤ s → s ≤ 1 → |u| ≤ R → |v| ≤ R → |Q (s, u, v)| ≤ K := by
  have hc : IsCompact (Set.Icc (0 : ℝ) 1 ×ˢ (Set.Icc (-R) R ×ˢ Set.Icc (-R) R)) := isCompact_Icc.prod (isCompact_Icc.prod isCompact_Icc)
  obtain ⟨K, hK⟩ := hc.exists_bound_of_continuousOn hQ.continuousOn
  refine ⟨max K 0, le_max_right _ _, fun s u v h0 h1 hu hv => ?_⟩
  exact (hK (s, u, v) ⟨⟨h0, h1⟩, abs_le.1 hu, abs_le.1 hv⟩).trans (le_max_left _ _)

/-- Second-order expansion of the exponential. -/
theorem exp_expand (x : ℝ) {h : ℝ} (h0 : 0 < h) (h1 : h ≤ 1) :
    ∃ u, |u| ≤ |x| ^ 3 * Real.exp |x| ∧ Real.exp (x * h) = 1 + x * h + (x * h) ^ 2 / 2 + h ^ 3 * u := by
  have h2 := Complex.norm_exp_sub_sum_le_norm_mul_exp ((x * h : ℝ) : ℂ) 3
  have e : Complex.exp ((x * h : ℝ) : ℂ) - ∑ m ∈ Finset.range 3, ((x * h : ℝ) : ℂ) ^ m / m.factorial =
      ((Real.exp (x * h) - (1 + x * h + (x * h) ^ 2 / 2) : ℝ) : ℂ) := by
    simp [Finset.sum_range_succ]
  rw [e, Complex.norm_real, Complex.norm_real, Real.norm_eq_abs, Real.norm_eq_abs, abs_mul, abs_of_pos h0] at h2
  refine ⟨(Real.exp (x * h) - (1 + x * h + (x * h) ^ 2 / 2)) / h ^ 3, ?_, ?_⟩
  · rw [abs_div, abs_of_pos (pow_pos h0 3), div_le_iff₀ (pow_pos h0 3)]
    refine h2.trans ?_
    have h3 : Real.exp (|x| * h) ≤ Real.exp |x| := Real.exp_le_exp.2 (mul_le_of_le_one_right (abs_nonneg _) h1)
    have h4 := mul_le_mul_of_nonneg_left h3 (by positivity : 0 ≤ (|x| * h) ^ 3)
    refine h4.trans (le_of_eq ?_)
    ring
  · rw [mul_div_cancel₀ _ (pow_pos h0 3).ne']
    ring

/-- The moments of the factors of one step of length `h ≤ 1`. -/
theorem factor_bounds (μ q d r0 r1 : ℝ) : ∃ K, 0 ≤ K ∧ ∀ h, 0 < h → h ≤ 1 → ∀ p r, r = r0 + √h * r1 → p = 1 + (μ + d * √h) * h - r * h →
    |runFactor p q r h - 1| ≤ K * h ∧
    |runFactor p q r h - mixFactor μ p q r h - d * √h * h| ≤ K * h ^ 2 ∧
    |mixFactor μ p q r h - solFactor μ q h - d * √h * h| ≤ K * h ^ 2 ∧
    |runFactor p q r h - 2 * mixFactor μ p q r h + solFactor μ q h| ≤ K * h ^ 2 ∧
    (d = 0 → r0 = q ^ 2 / 2 → |runFactor p q r h - 2 * mixFactor μ p q r h + solFactor μ q h| ≤ K * h ^ 3) ∧
    |mixFactor μ p q r h - 1| ≤ K * h ∧ |1 + μ * h - Real.exp (μ * h)| ≤ K * h ^ 2 := by
  obtain ⟨R, hR⟩ : ∃ R, R = max (|μ| ^ 3 * Real.exp |μ|) (|2 * μ + q ^ 2| ^ 3 * Real.exp |2 * μ + q ^ 2|) := ⟨_, rfl⟩
  let r : ℝ → ℝ := fun s => r0 + s * r1
  let m : ℝ → ℝ := fun s => μ + d * s
  let u1 : ℝ → ℝ := fun s => (m s + q ^ 2) + r s * q ^ 2 * s ^ 2
  let θ : ℝ → ℝ → ℝ := fun s u => μ ^ 2 / 2 + s ^ 2 * u
  let θ2 : ℝ → ℝ → ℝ := fun s v => (2 * μ + q ^ 2) ^ 2 / 2 + s ^ 2 * v
  obtain ⟨K1, k1, b1⟩ := bounded_on_box (Q := fun z => 2 * m z.1 + m z.1 ^ 2 * z.1 ^ 2 + q ^ 2 + 2 * r z.1 ^ 2 * z.1 ^ 2)
    (by simp only [m, r]; fun_prop) R
  obtain ⟨K2, k2, b2⟩ := bounded_on_box (Q := fun z => m z.1 ^ 2 + 2 * r z.1 ^ 2 - r z.1 * q ^ 2 - μ * (m z.1 + q ^ 2) -
    μ * r z.1 * q ^ 2 * z.1 ^ 2 - θ z.1 z.2.1 * (1 + z.1 ^ 2 * u1 z.1)) (by simp only [m, r, u1, θ]; fun_prop) R
  obtain ⟨K3, k3, b3⟩ := bounded_on_box (Q := fun z => r z.1 * q ^ 2 + μ * (m z.1 + q ^ 2) +
    μ * r z.1 * q ^ 2 * z.1 ^ 2 + θ z.1 z.2.1 * (1 + z.1 ^ 2 * u1 z.1) - θ2 z.1 z.2.2) (by simp only [m, r, u1, θ, θ2]; fun_prop) R
  obtain ⟨K4, k4, b4⟩ := bounded_on_box (Q := fun z => m z.1 ^ 2 + 2 * r z.1 ^ 2 - 2 * (r z.1 * q ^ 2 + μ * (m z.1 + q ^ 2) +
    μ * r z.1 * q ^ 2 * z.1 ^ 2 + θ z.1 z.2.1 * (1 + z.1 ^ 2 * u1 z.1)) + θ2 z.1 z.2.2) (by simp only [m, r, u1, θ, θ2]; fun_prop) R
  obtain ⟨K5, k5, b5⟩ := bounded_on_box (Q := fun z => 2 * r1 ^ 2 - 2 * μ * r z.1 * q ^ 2 - μ ^ 2 * u1 z.1 -
    2 * z.2.1 * (1 + z.1 ^ 2 * u1 z.1) + z.2.2) (by simp only [m, r, u1]; fun_prop) R
  obtain ⟨K6, k6, b6⟩ := bounded_on_box (Q := fun z => u1 z.1 + (μ + z.1 ^ 2 * θ z.1 z.2.1) * (1 + z.1 ^ 2 * u1 z.1))
    (by simp only [m, r, u1, θ]; fun_prop) R
  obtain ⟨K7, k7, b7⟩ := bounded_on_box (Q := fun z => -θ z.1 z.2.1) (by simp only [θ]; fun_prop) R
  refine ⟨K1 + K2 + K3 + K4 + K5 + K6 + K7, by positivity, fun h h0 h1 p r' hr hp => ?_⟩
  obtain ⟨u, hu, eu⟩ := exp_expand μ h0 h1
  obtain ⟨v, hv, ev⟩ := exp_expand (2 * μ + q ^ 2) h0 h1
  have hu' : |u| ≤ R := hu.trans (by rw [hR]; exact le_max_left _ _)
  have hv' : |v| ≤ R := hv.trans (by rw [hR]; exact le_max_right _ _)
  obtain ⟨s, hs⟩ : ∃ s, s = √h := ⟨_, rfl⟩
  have s0 : 0 ≤ s := hs ▸ Real.sqrt_nonneg _
  have s1 : s ≤ 1 := by rw [hs]; exact Real.sqrt_le_one.2 h1
  have hss : s ^ 2 = h := by rw [hs]; exact Real.sq_sqrt h0.le
  rw [← hs] at hr hp ⊢
  have key : ∀ (x Q K : ℝ) (n : ℕ), x = h ^ n * Q → |Q| ≤ K → K ≤ K1 + K2 + K3 + K4 + K5 + K6 + K7 →
      |x| ≤ (K1 + K2 + K3 + K4 + K5 + K6 + K7) * h ^ n := by
    intro x Q K n hx hQ hK
    rw [hx, abs_mul, abs_of_pos (pow_pos h0 n), mul_comm]
    exact mul_le_mul_of_nonneg_right (hQ.trans hK) (pow_pos h0 n).le
  have key1 : ∀ (x Q K : ℝ), x = h * Q → |Q| ≤ K → K ≤ K1 + K2 + K3 + K4 + K5 + K6 + K7 →
      |x| ≤ (K1 + K2 + K3 + K4 + K5 + K6 + K7) * h := by
    intro x Q K hx hQ hK
    have := key x Q K 1 (by rw [pow_one]; exact hx) hQ hK
    rwa [pow_one] at this
  unfold runFactor mixFactor solFactor
  rw [eu, ev]
  subst hr hp
  refine ⟨key1 _ _ K1 ?_ (b1 s u v s0 s1 hu' hv') (by linarith), key _ _ K2 2 ?_ (b2 s u v s0 s1 hu' hv') (by linarith),
    key _ _ K3 2 ?_ (b3 s u v s0 s1 hu' hv') (by linarith), key _ _ K4 2 ?_ (b4 s u v s0 s1 hu' hv') (by linarith),
    fun hd hr0 => key _ _ K5 3 ?_ (b5 s u v s0 s1 hu' hv') (by linarith),
    key1 _ _ K6 ?_ (b6 s u v s0 s1 hu' hv') (by linarith), key _ _ K7 2 ?_ (b7 s u v s0 s1 hu' hv') (by linarith)⟩
  all_goals simp only [m, r, u1, θ, θ2, ← hss]
  · ring
  · ring
  · ring
  · ring
  · subst hd hr0
    ring
  · ring
  · ring

end factors

/-! ### Accumulation over the steps -/

section accumulate

variable {τ : ℕ → ℝ}

theorem accumulate (hτ : StrictMono τ) {K E S T : ℝ} (hK : 0 ≤ K) (hE : 0 ≤ E) {α χ ν : ℕ → ℝ}
    (hα : ∀ k, |α k| ≤ 1 + (τ (k + 1) - τ k) * K) (hχ : ∀ k, |χ k| ≤ 1 + (τ (k + 1) - τ k) * K)
    (h1 : ∀ k, |α k - χ k| ≤ K * (τ (k + 1) - τ k) * S) (h2 : ∀ k, |χ k - ν k| ≤ K * (τ (k + 1) - τ k) * S)
    (h3 : ∀ k, |α k - 2 * χ k + ν k| ≤ K * (τ (k + 1) - τ k) * S ^ 2)
    (hν : ∀ k, τ k - τ 0 ≤ T → |∏ j ∈ Finset.range k, ν j| ≤ E) (hS : 0 ≤ S) (k : ℕ) (hk : τ k - τ 0 ≤ T) :
    |(∏ j ∈ Finset.range k, α j) - 2 * (∏ j ∈ Finset.range k, χ j) + ∏ j ∈ Finset.range k, ν j| ≤
      T * (2 * K * (T * (K * E) * Real.exp (K * T)) + K * E) * Real.exp (K * T) * S ^ 2 := by
  have ht : ∀ k, 0 ≤ τ k - τ 0 := fun k => sub_nonneg.2 (hτ.monotone (Nat.zero_le k))
  have hh : ∀ k, 0 ≤ τ (k + 1) - τ k := fun k => sub_nonneg.2 (hτ (Nat.lt_succ_self k)).le
  have es : ∀ k, τ (k + 1) - τ 0 = (τ k - τ 0) + (τ (k + 1) - τ k) := fun k => by ring
  have hG : ∀ k, τ k - τ 0 ≤ T → |(∏ j ∈ Finset.range k, χ j) - ∏ j ∈ Finset.range k, ν j| ≤
      (τ k - τ 0) * (K * E * S) * Real.exp (K * (τ k - τ 0)) := by
    intro k
    induction k with
    | zero => intro _; simp
    | succ k ih =>
      intro hk
      have hk' : τ k - τ 0 ≤ T := by have := hh k; have := es k; linarith
      rw [es]
      refine le_trans ?_ (gronwall_grid hK (by positivity) (ht k) (hh k) (ih hk'))
      rw [Finset.prod_range_succ, Finset.prod_range_succ]
      have e : (∏ j ∈ Finset.range k, χ j) * χ k - (∏ j ∈ Finset.range k, ν j) * ν k =
          χ k * ((∏ j ∈ Finset.range k, χ j) - ∏ j ∈ Finset.range k, ν j) + (χ k - ν k) * ∏ j ∈ Finset.range k, ν j := by ring
      rw [e]
      refine (abs_add_le _ _).trans (add_le_add ?_ ?_)
      · rw [abs_mul]
        exact mul_le_mul_of_nonneg_right (hχ k) (abs_nonneg _)
      · rw [abs_mul]
        refine (mul_le_mul (h2 k) (hν k hk') (abs_nonneg _) (by have := hh k; positivity)).trans (le_of_eq ?_)
        ring
  obtain ⟨c, hc⟩ : ∃ c, c = (2 * K * (T * (K * E) * Real.exp (K * T)) + K * E) := ⟨_, rfl⟩
  have hD : ∀ k, τ k - τ 0 ≤ T → |(∏ j ∈ Finset.range k, α j) - 2 * (∏ j ∈ Finset.range k, χ j) + ∏ j ∈ Finset.range k, ν j| ≤
      (τ k - τ 0) * (c * S ^ 2) * Real.exp (K * (τ k - τ 0)) := by
    intro k
    induction k with
    | zero => intro _; norm_num
    | succ k ih =>
      intro hk
      have hk' : τ k - τ 0 ≤ T := by have := hh k; have := es k; linarith
      have hT : 0 ≤ T := (ht k).trans hk'
      have c0 : 0 ≤ c := by rw [hc]; positivity
      rw [es]
      refine le_trans ?_ (gronwall_grid hK (by positivity) (ht k) (hh k) (ih hk'))
      rw [Finset.prod_range_succ, Finset.prod_range_succ, Finset.prod_range_succ]
      have e : (∏ j ∈ Finset.range k, α j) * α k - 2 * ((∏ j ∈ Finset.range k, χ j) * χ k) + (∏ j ∈ Finset.range k, ν j) * ν k =
          α k * ((∏ j ∈ Finset.range k, α j) - 2 * (∏ j ∈ Finset.range k, χ j) + ∏ j ∈ Finset.range k, ν j) +
          (2 * ((α k - χ k) * ((∏ j ∈ Finset.range k, χ j) - ∏ j ∈ Finset.range k, ν j)) +
          (α k - 2 * χ k + ν k) * ∏ j ∈ Finset.range k, ν j) := by ring
      rw [e]
      refine (abs_add_le _ _).trans (add_le_add ?_ ((abs_add_le _ _).trans ?_))
      · rw [abs_mul]
        exact mul_le_mul_of_nonneg_right (hα k) (abs_nonneg _)
      · have g1 : |(∏ j ∈ Finset.range k, χ j) - ∏ j ∈ Finset.range k, ν j| ≤ T * (K * E * S) * Real.exp (K * T) := by
          refine (hG k hk').trans ?_
          have g2 : Real.exp (K * (τ k - τ 0)) ≤ Real.exp (K * T) := Real.exp_le_exp.2 (mul_le_mul_of_nonneg_left hk' hK)
          have g3 : (τ k - τ 0) * (K * E * S) ≤ T * (K * E * S) := mul_le_mul_of_nonneg_right hk' (by positivity)
          exact mul_le_mul g3 g2 (Real.exp_pos _).le (by positivity)
        have a1 : |2 * ((α k - χ k) * ((∏ j ∈ Finset.range k, χ j) - ∏ j ∈ Finset.range k, ν j))| ≤
            2 * ((K * (τ (k + 1) - τ k) * S) * (T * (K * E * S) * Real.exp (K * T))) := by
          rw [abs_mul, abs_mul, abs_two]
          exact mul_le_mul_of_nonneg_left (mul_le_mul (h1 k) g1 (abs_nonneg _) (by have := hh k; positivity)) zero_le_two
        have a2 : |(α k - 2 * χ k + ν k) * ∏ j ∈ Finset.range k, ν j| ≤ (K * (τ (k + 1) - τ k) * S ^ 2) * E := by
          rw [abs_mul]
          exact mul_le_mul (h3 k) (hν k hk') (abs_nonneg _) (by have := hh k; positivity)
        refine (add_le_add a1 a2).trans (le_of_eq ?_)
        rw [hc]
        ring
  have hT : 0 ≤ T := (ht k).trans hk
  have c0 : 0 ≤ c := by rw [hc]; positivity
  refine (hD k hk).trans ?_
  rw [← hc]
  have g2 : Real.exp (K * (τ k - τ 0)) ≤ Real.exp (K * T) := Real.exp_le_exp.2 (mul_le_mul_of_nonneg_left hk hK)
  have g3 : (τ k - τ 0) * (c * S ^ 2) ≤ T * (c * S ^ 2) := mul_le_mul_of_nonneg_right hk (by positivity)
  refine (mul_le_mul g3 g2 (Real.exp_pos _).le (by positivity)).trans (le_of_eq ?_)
  ring

/-- Products of numbers close to each other. -/
theorem accumulate_prod (hτ : StrictMono τ) {K E H T : ℝ} (hK : 0 ≤ K) (hE : 0 ≤ E) {α ν : ℕ → ℝ} (hH : 0 ≤ H)
    (hα : ∀ k, |α k| ≤ 1 + (τ (k + 1) - τ k) * K) (h2 : ∀ k, |α k - ν k| ≤ K * (τ (k + 1) - τ k) * H)
    (hν : ∀ k, τ k - τ 0 ≤ T → |∏ j ∈ Finset.range k, ν j| ≤ E) (k : ℕ) (hk : τ k - τ 0 ≤ T) :
    |(∏ j ∈ Finset.range k, α j) - ∏ j ∈ Finset.range k, ν j| ≤ T * (K * E) * Real.exp (K * T) * H := by
  have ht : ∀ k, 0 ≤ τ k - τ 0 := fun k => sub_nonneg.2 (hτ.monotone (Nat.zero_le k))
  have hh : ∀ k, 0 ≤ τ (k + 1) - τ k := fun k => sub_nonneg.2 (hτ (Nat.lt_succ_self k)).le
  have es : ∀ k, τ (k + 1) - τ 0 = (τ k - τ 0) + (τ (k + 1) - τ k) := fun k => by ring
  have hG : ∀ k, τ k - τ 0 ≤ T → |(∏ j ∈ Finset.range k, α j) - ∏ j ∈ Finset.range k, ν j| ≤
      (τ k - τ 0) * (K * E * H) * Real.exp (K * (τ k - τ 0)) := by
    intro k
    induction k with
    | zero => intro _; simp
    | succ k ih =>
      intro hk
      have hk' : τ k - τ 0 ≤ T := by have := hh k; have := es k; linarith
      rw [es]
      refine le_trans ?_ (gronwall_grid hK (by positivity) (ht k) (hh k) (ih hk'))
      rw [Finset.prod_range_succ, Finset.prod_range_succ]
      have e : (∏ j ∈ Finset.range k, α j) * α k - (∏ j ∈ Finset.range k, ν j) * ν k =
          α k * ((∏ j ∈ Finset.range k, α j) - ∏ j ∈ Finset.range k, ν j) + (α k - ν k) * ∏ j ∈ Finset.range k, ν j := by ring
      rw [e]
      refine (abs_add_le _ _).trans (add_le_add ?_ ?_)
      · rw [abs_mul]
        exact mul_le_mul_of_nonneg_right (hα k) (abs_nonneg _)
      · rw [abs_mul]
        refine (mul_le_mul (h2 k) (hν k hk') (abs_nonneg _) (by have := hh k; positivity)).trans (le_of_eq ?_)
        ring
  have hT : 0 ≤ T := (ht k).trans hk
  refine (hG k hk).trans ?_
  have g2 : Real.exp (K * (τ k - τ 0)) ≤ Real.exp (K * T) := Real.exp_le_exp.2 (mul_le_mul_of_nonneg_left hk hK)
  have g3 : (τ k - τ 0) * (K * E * H) ≤ T * (K * E * H) := mul_le_mul_of_nonneg_right hk (by positivity)
  refine (mul_le_mul g3 g2 (Real.exp_pos _).le (by positivity)).trans (le_of_eq ?_)
  ring

theorem prod_exp_grid (τ : ℕ → ℝ) (c : ℝ) (k : ℕ) :
    ∏ j ∈ Finset.range k, Real.exp (c * (τ (j + 1) - τ j)) = Real.exp (c * (τ k - τ 0)) := by
  rw [← Real.exp_sum, ← Finset.mul_sum, Finset.sum_range_sub]

end accumulate

/-! ### The orders -/

section orders

variable {ι : Type} [Fintype ι]

/-- The solution of the Ito equation `dX_i = a_i X_i dt + b_i X_i dW_i`, `X(t0) = x0`. -/
noncomputable def itoSolution {Ω : Type} (W : Ω → ℝ → ι → ℝ) (t0 : ℝ) (a b x0 : ι → ℝ) (ω : Ω) (t : ℝ) : ι → ℝ := fun i =>
  Real.exp ((a i - b i ^ 2 / 2) * (t - t0) + b i * (W ω t i - W ω t0 i)) * x0 i

/-- The solution of the Stratonovich equation `dX_i = a_i X_i dt + b_i X_i ∘ dW_i`, `X(t0) = x0`. -/
noncomputable def stratonovichSolution {Ω : Type} (W : Ω → ℝ → ι → ℝ) (t0 : ℝ) (a b x0 : ι → ℝ) (ω : Ω) (t : ℝ) : ι → ℝ := fun i =>
  Real.exp (a i * (t - t0) + b i * (W ω t i - W ω t0 i)) * x0 i

/-- The solution that a solver name stands for. -/
noncomputable def namedSolution {Ω : Type} (name : String) (W : Ω → ℝ → ι → ℝ) (t0 : ℝ) (a b x0 : ι → ℝ) (ω : Ω) (t : ℝ) : ι → ℝ :=
  if name = "euler" ∨ name = "milstein_ito" then itoSolution W t0 a b x0 ω t else stratonovichSolution W t0 a b x0 ω t

/-- The growth rate of the mean of the solution. -/
noncomputable def namedRate (name : String) (a b : ℝ) : ℝ := if name = "euler" ∨ name = "milstein_ito" then a else a + b ^ 2 / 2

theorem namedSolution_exp {Ω : Type} (name : String) (W : Ω → ℝ → ι → ℝ) (t0 : ℝ) (a b x0 : ι → ℝ) (ω : Ω) (t : ℝ) :
    namedSolution name W t0 a b x0 ω t = expSolution W t0 (fun i => namedRate name (a i) (b i)) b x0 ω t := by
  funext i
  unfold namedSolution namedRate expSolution
  split
  · rfl
  · simp only [stratonovichSolution, add_sub_cancel_right]

/-- The part of the factor of a step that spoils the mean, and the two parts of the coefficient of `ΔW²`. -/
noncomputable def spoil (name : String) (a b : ℝ) : ℝ := if name = "milstein_stratonovich" then a * b / 2 else 0
noncomputable def quadPart (name : String) (b : ℝ) : ℝ := if name = "euler" then 0 else b ^ 2 / 2
noncomputable def supportPart (name : String) (a b : ℝ) : ℝ := if name = "euler" ∨ name = "eulerHeun" then 0 else a * b / 2

theorem lin_parts {name : String} {noise type : Option String} (hacc : Accepts name noise type) (a b : ι → ℝ) (h : ℝ) (i : ι) :
    linR name a b h i = quadPart name (b i) + √h * supportPart name (a i) (b i) ∧
    linP name a b h i = 1 + (namedRate name (a i) (b i) + spoil name (a i) (b i) * √h) * h - linR name a b h i * h := by
  cases hacc <;> constructor <;> simp [linP, linR, quadPart, supportPart, namedRate, spoil] <;> ring

/-- The common part of the order theorems. -/
theorem order_error {name : String} {noise type : Option String} (hacc : Accepts name noise type) (a b x0 : ι → ℝ) (T : ℝ) (i : ι) :
    ∃ C, 0 ≤ C ∧ ∀ (Ω : Type) [MeasurableSpace Ω] (P : Measure Ω) [IsProbabilityMeasure P] (W : Ω → ℝ → ι → ℝ) (τ : ℕ → ℝ) (H : ℝ),
      GaussianSteps P W τ → StrictMono τ → (∀ k, τ (k + 1) - τ k ≤ H) → H ≤ 1 → ∀ k, τ k - τ 0 ≤ T →
      (∫ ω, (quadState W τ (fun k => linP name a b (τ (k + 1) - τ k)) (fun _ => b) (fun k => linR name a b (τ (k + 1) - τ k)) x0 ω k i -
        namedSolution name W (τ 0) a b x0 ω (τ k) i) ^ 2 ∂P ≤ C * H) ∧
      (name = "milstein_ito" ∨ name = "eulerHeun" →
        ∫ ω, (quadState W τ (fun k => linP name a b (τ (k + 1) - τ k)) (fun _ => b) (fun k => linR name a b (τ (k + 1) - τ k)) x0 ω k i -
          namedSolution name W (τ 0) a b x0 ω (τ k) i) ^ 2 ∂P ≤ C * H ^ 2) ∧
      (name ≠ "milstein_stratonovich" →
        |(∏ j ∈ Finset.range k, (1 + namedRate name (a i) (b i) * (τ (j + 1) - τ j))) * x0 i -
          ∫ ω, namedSolution name W (τ 0) a b x0 ω (τ k) i ∂P| ≤ C * H) := by
  obtain ⟨K, hK, hb⟩ := factor_bounds (namedRate name (a i) (b i)) (b i) (spoil name (a i) (b i)) (quadPart name (b i))
    (supportPart name (a i) (b i))
  obtain ⟨μ, hμ⟩ : ∃ μ, μ = namedRate name (a i) (b i) := ⟨_, rfl⟩
  obtain ⟨d, hd⟩ : ∃ d, d = spoil name (a i) (b i) := ⟨_, rfl⟩
  obtain ⟨L, hL⟩ : ∃ L, L = K + |d| + |μ| := ⟨_, rfl⟩
  have L0 : 0 ≤ L := by rw [hL]; positivity
  have KL : K ≤ L := by rw [hL]; linarith [abs_nonneg d, abs_nonneg μ]
  obtain ⟨E, hE⟩ : ∃ E, E = Real.exp (|2 * μ + b i ^ 2| * T) + Real.exp (|μ| * T) := ⟨_, rfl⟩
  have E0 : 0 ≤ E := by rw [hE]; positivity
  obtain ⟨C1, hC1⟩ : ∃ C1, C1 = T * (2 * L * (T * (L * E) * Real.exp (L * T)) + L * E) * Real.exp (L * T) := ⟨_, rfl⟩
  obtain ⟨C2, hC2⟩ : ∃ C2, C2 = T * (L * E) * Real.exp (L * T) := ⟨_, rfl⟩
  refine ⟨|C1| * x0 i ^ 2 + |C2| * |x0 i|, by positivity, fun Ω _ P _ W τ H hW hτ hH hH1 k hk => ?_⟩
  have hh : ∀ j, 0 < τ (j + 1) - τ j := fun j => sub_pos.2 (hτ (Nat.lt_succ_self j))
  have hh1 : ∀ j, τ (j + 1) - τ j ≤ 1 := fun j => (hH j).trans hH1
  have H0 : 0 < H := (hh 0).trans_le (hH 0)
  have ht : ∀ k, 0 ≤ τ k - τ 0 := fun k => sub_nonneg.2 (hτ.monotone (Nat.zero_le k))
  have hT : 0 ≤ T := (ht k).trans hk
  have C10 : 0 ≤ C1 := by rw [hC1]; positivity
  have C20 : 0 ≤ C2 := by rw [hC2]; positivity
  rw [abs_of_nonneg C10, abs_of_nonneg C20]
  have expLe : ∀ (c : ℝ) k, τ k - τ 0 ≤ T → Real.exp (c * (τ k - τ 0)) ≤ Real.exp (|c| * T) := by
    intro c k hk
    refine Real.exp_le_exp.2 ?_
    exact (mul_le_mul_of_nonneg_right (le_abs_self c) (ht k)).trans (mul_le_mul_of_nonneg_left hk (abs_nonneg c))
  have hb' := fun j => hb (τ (j + 1) - τ j) (hh j) (hh1 j) (linP name a b (τ (j + 1) - τ j) i) (linR name a b (τ (j + 1) - τ j) i)
    (lin_parts hacc a b _ i).1 (lin_parts hacc a b _ i).2
  rw [← hμ, ← hd] at hb'
  have one : ∀ (x K' h : ℝ), |x - 1| ≤ K' * h → |x| ≤ 1 + h * K' := fun x K' h hx => by
    have := abs_add_le (x - 1) 1
    rw [sub_add_cancel, abs_one] at this
    linarith
  have sq2 : ∀ j, (τ (j + 1) - τ j) ^ 2 ≤ (τ (j + 1) - τ j) * H := fun j => by
    rw [pow_two]; exact mul_le_mul_of_nonneg_left (hH j) (hh j).le
  have hsq : ∀ j, √(τ (j + 1) - τ j) ≤ √H := fun j => Real.sqrt_le_sqrt (hH j)
  have Hle : H ≤ √H := by
    have h1 := Real.sq_sqrt H0.le
    have h2 : √H ≤ 1 := Real.sqrt_le_one.2 hH1
    nlinarith [Real.sqrt_nonneg H]
  have hα : ∀ j, |runFactor (linP name a b (τ (j + 1) - τ j) i) (b i) (linR name a b (τ (j + 1) - τ j) i) (τ (j + 1) - τ j)| ≤
      1 + (τ (j + 1) - τ j) * L := fun j => (one _ _ _ (hb' j).1).trans (by have := mul_le_mul_of_nonneg_left KL (hh j).le; linarith)
  have hχ : ∀ j, |mixFactor μ (linP name a b (τ (j + 1) - τ j) i) (b i) (linR name a b (τ (j + 1) - τ j) i) (τ (j + 1) - τ j)| ≤
      1 + (τ (j + 1) - τ j) * L := fun j =>
    (one _ _ _ (hb' j).2.2.2.2.2.1).trans (by have := mul_le_mul_of_nonneg_left KL (hh j).le; linarith)
  have hν : ∀ k, τ k - τ 0 ≤ T → |∏ j ∈ Finset.range k, solFactor μ (b i) (τ (j + 1) - τ j)| ≤ E := by
    intro k hk
    simp only [solFactor]
    rw [prod_exp_grid, abs_of_pos (Real.exp_pos _), hE]
    have := expLe (2 * μ + b i ^ 2) k hk
    linarith [Real.exp_pos (|μ| * T)]
  have drift : ∀ (j : ℕ) (x S : ℝ), |x - d * √(τ (j + 1) - τ j) * (τ (j + 1) - τ j)| ≤ K * (τ (j + 1) - τ j) ^ 2 →
      |d| * √(τ (j + 1) - τ j) + K * (τ (j + 1) - τ j) ≤ L * S → |x| ≤ L * (τ (j + 1) - τ j) * S := by
    intro j x S hx hS
    have h1 := abs_add_le (x - d * √(τ (j + 1) - τ j) * (τ (j + 1) - τ j)) (d * √(τ (j + 1) - τ j) * (τ (j + 1) - τ j))
    rw [sub_add_cancel, abs_mul, abs_mul, abs_of_nonneg (Real.sqrt_nonneg _), abs_of_pos (hh j)] at h1
    have h2 := mul_le_mul_of_nonneg_left hS (hh j).le
    nlinarith
  obtain ⟨err, -, -, -⟩ := linear_error hW hτ (fun k => linP name a b (τ (k + 1) - τ k)) (fun k => linR name a b (τ (k + 1) - τ k))
    (fun i => namedRate name (a i) (b i)) b x0 k i
  have mean := (linear_error hW hτ (fun k => linP name a b (τ (k + 1) - τ k)) (fun k => linR name a b (τ (k + 1) - τ k))
    (fun i => namedRate name (a i) (b i)) b x0 k i).2.1
  simp only [namedSolution_exp]
  rw [err, mean, ← hμ]
  have x2 : 0 ≤ x0 i ^ 2 := sq_nonneg _
  have fin : ∀ S, |(∏ j ∈ Finset.range k, runFactor (linP name a b (τ (j + 1) - τ j) i) (b i) (linR name a b (τ (j + 1) - τ j) i)
        (τ (j + 1) - τ j)) - 2 * (∏ j ∈ Finset.range k, mixFactor μ (linP name a b (τ (j + 1) - τ j) i) (b i)
        (linR name a b (τ (j + 1) - τ j) i) (τ (j + 1) - τ j)) + ∏ j ∈ Finset.range k, solFactor μ (b i) (τ (j + 1) - τ j)| ≤
      C1 * S → 0 ≤ S →
      ((∏ j ∈ Finset.range k, runFactor (linP name a b (τ (j + 1) - τ j) i) (b i) (linR name a b (τ (j + 1) - τ j) i)
        (τ (j + 1) - τ j)) - 2 * (∏ j ∈ Finset.range k, mixFactor μ (linP name a b (τ (j + 1) - τ j) i) (b i)
        (linR name a b (τ (j + 1) - τ j) i) (τ (j + 1) - τ j)) + ∏ j ∈ Finset.range k, solFactor μ (b i) (τ (j + 1) - τ j)) *
        x0 i ^ 2 ≤ (C1 * x0 i ^ 2 + C2 * |x0 i|) * S := by
    intro S h hS
    have h1 := mul_le_mul_of_nonneg_right ((le_abs_self _).trans h) x2
    have h2 : 0 ≤ C2 * |x0 i| * S := by positivity
    linarith
  refine ⟨?_, fun hname => ?_, fun hname => ?_⟩
  · have := accumulate hτ (S := √H) L0 E0 hα hχ
      (fun j => drift j _ _ (hb' j).2.1 ?_) (fun j => drift j _ _ (hb' j).2.2.1 ?_)
      (fun j => (hb' j).2.2.2.1.trans ?_) hν (Real.sqrt_nonneg _) k hk
    · rw [← hC1, Real.sq_sqrt H0.le] at this
      exact fin H this H0.le
    · have h1 := mul_le_mul_of_nonneg_left (hsq j) (abs_nonneg d)
      have h2 := mul_le_mul_of_nonneg_left ((hH j).trans Hle) hK
      have h3 := mul_nonneg (abs_nonneg μ) (Real.sqrt_nonneg H)
      rw [hL]
      linarith
    · have h1 := mul_le_mul_of_nonneg_left (hsq j) (abs_nonneg d)
      have h2 := mul_le_mul_of_nonneg_left ((hH j).trans Hle) hK
      have h3 := mul_nonneg (abs_nonneg μ) (Real.sqrt_nonneg H)
      rw [hL]
      linarith
    · rw [Real.sq_sqrt H0.le, mul_assoc]
      exact mul_le_mul KL (sq2 j) (sq_nonneg _) L0
  · have d0 : d = 0 := by rw [hd]; rcases hname with rfl | rfl <;> simp [spoil]
    have q0 : quadPart name (b i) = b i ^ 2 / 2 := by rcases hname with rfl | rfl <;> simp [quadPart]
    have small : ∀ j, |d| * √(τ (j + 1) - τ j) + K * (τ (j + 1) - τ j) ≤ L * H := fun j => by
      rw [d0, abs_zero, zero_mul, zero_add]
      exact mul_le_mul KL (hH j) (hh j).le L0
    have := accumulate hτ (S := H) L0 E0 hα hχ
      (fun j => drift j _ _ (hb' j).2.1 (small j)) (fun j => drift j _ _ (hb' j).2.2.1 (small j))
      (fun j => ((hb' j).2.2.2.2.1 d0 q0).trans ?_) hν H0.le k hk
    · rw [← hC1] at this
      exact fin (H ^ 2) this (sq_nonneg _)
    · have h1 : (τ (j + 1) - τ j) ^ 3 ≤ (τ (j + 1) - τ j) * H ^ 2 := by
        rw [pow_succ']
        exact mul_le_mul_of_nonneg_left (pow_le_pow_left₀ (hh j).le (hH j) 2) (hh j).le
      rw [mul_assoc]
      exact mul_le_mul KL h1 (pow_nonneg (hh j).le 3) L0
  · have := accumulate_prod hτ (α := fun j => 1 + μ * (τ (j + 1) - τ j)) (ν := fun j => Real.exp (μ * (τ (j + 1) - τ j))) (E := E)
      (T := T) L0 E0 H0.le (fun j => ?_) (fun j => ((hb' j).2.2.2.2.2.2).trans ?_) (fun k hk => ?_) k hk
    · rw [← hC2] at this
      rw [← sub_mul, abs_mul]
      have h1 := mul_le_mul_of_nonneg_right this (abs_nonneg (x0 i))
      have h2 : 0 ≤ C1 * x0 i ^ 2 * H := by positivity
      linarith
    · refine (abs_add_le _ _).trans ?_
      rw [abs_one, abs_mul, abs_of_pos (hh j)]
      have : |μ| ≤ L := by rw [hL]; linarith [abs_nonneg d]
      have := mul_le_mul_of_nonneg_right this (hh j).le
      linarith
    · rw [mul_assoc]
      exact mul_le_mul KL (sq2 j) (sq_nonneg _) L0
    · rw [prod_exp_grid, abs_of_pos (Real.exp_pos _), hE]
      have := expLe μ k hk
      linarith [Real.exp_pos (|2 * μ + b i ^ 2| * T)]

theorem meanFactor_named {name : String} {noise type : Option String} (hacc : Accepts name noise type)
    (hname : name ≠ "milstein_stratonovich") (a b x : ℝ) : meanFactor name a b x = 1 + namedRate name a b * x := by
  cases hacc with
  | milsteinStratonovich => exact absurd rfl hname
  | _ => simp [meanFactor, namedRate]

/-- **C124.** Strong order one half of all four SDE solvers on `dX_i = a_i X_i dt + b_i X_i dW_i` (Ito for `euler` and
`milstein_ito`, Stratonovich for `eulerHeun` and `milstein_stratonovich`): along Brownian increments, on every grid with steps at
most `H ≤ 1`, the mean-square distance of the returned states to the exact solution is at most `C H`. The constant depends on the
equation and on the horizon `T` only. -/
theorem C124_half {name : String} {noise type : Option String} (hacc : Accepts name noise type) (a b x0 : ι → ℝ) (T : ℝ) :
    ∃ C, ∀ (Ω : Type) [MeasurableSpace Ω] (P : Measure Ω) [IsProbabilityMeasure P] (W : Ω → ℝ → ι → ℝ) (τ : ℕ → ℝ) (H : ℝ),
      GaussianSteps P W τ → StrictMono τ → (∀ k, τ (k + 1) - τ k ≤ H) → H ≤ 1 → ∀ n, 1 ≤ n → τ n - τ 0 ≤ T →
      ∃ sol : Ω → List (ι → ℝ),
        (∀ ω, sdeint (m := Except PyErr) Real.sqrt (.sdeFunc (pureSde (fun _ x => a * x) (fun _ x => b * x) noise type)) x0
          (gridOf τ n) (.inl name) (pathBm (W ω)) [] = .ok (gridOf τ n, sol ω)) ∧
        ∀ k ≤ n, ∑ i, ∫ ω, ((sol ω).getD k 0 i - namedSolution name W (τ 0) a b x0 ω (τ k) i) ^ 2 ∂P ≤ C * H := by
  choose C hC h using fun i => order_error hacc a b x0 T i
  refine ⟨∑ i, C i, fun Ω _ P _ W τ H hW hτ hH hH1 n hn1 hT => ⟨_, fun ω => sdeint_linear W hτ a b x0 hacc n hn1 ω, fun k hk => ?_⟩⟩
  have hk' : k < n + 1 := by omega
  simp only [List.getD_eq_getElem?_getD, List.getElem?_map, List.getElem?_range hk', Option.map_some, Option.getD_some]
  rw [Finset.sum_mul]
  exact Finset.sum_le_sum fun i _ => (h i Ω P W τ H hW hτ hH hH1 k (by have := hτ.monotone hk; linarith)).1

/-- **C124.** Strong order one of `milstein_ito` (Ito) and `eulerHeun` (Stratonovich) on `dX_i = a_i X_i dt + b_i X_i dW_i`: the
mean-square distance of the returned states to the exact solution is at most `C H²` on every grid with steps at most `H ≤ 1`. -/
theorem C124_one_partial {name : String} {noise type : Option String} (hacc : Accepts name noise type)
    (hname : name = "milstein_ito" ∨ name = "eulerHeun") (a b x0 : ι → ℝ) (T : ℝ) :
    ∃ C, ∀ (Ω : Type) [MeasurableSpace Ω] (P : Measure Ω) [IsProbabilityMeasure P] (W : Ω → ℝ → ι → ℝ) (τ : ℕ → ℝ) (H : ℝ),
      GaussianSteps P W τ → StrictMono τ → (∀ k, τ (k + 1) - τ k ≤ H) → H ≤ 1 → ∀ n, 1 ≤ n → τ n - τ 0 ≤ T →
      ∃ sol : Ω → List (ι → ℝ),
        (∀ ω, sdeint (m := Except PyErr) Real.sqrt (.sdeFunc (pureSde (fun _ x => a * x) (fun _ x => b * x) noise type)) x0
          (gridOf τ n) (.inl name) (pathBm (W ω)) [] = .ok (gridOf τ n, sol ω)) ∧
        ∀ k ≤ n, ∑ i, ∫ ω, ((sol ω).getD k 0 i - namedSolution name W (τ 0) a b x0 ω (τ k) i) ^ 2 ∂P ≤ C * H ^ 2 := by
  choose C hC h using fun i => order_error hacc a b x0 T i
  refine ⟨∑ i, C i, fun Ω _ P _ W τ H hW hτ hH hH1 n hn1 hT => ⟨_, fun ω => sdeint_linear W hτ a b x0 hacc n hn1 ω, fun k hk => ?_⟩⟩
  have hk' : k < n + 1 := by omega
  simp only [List.getD_eq_getElem?_getD, List.getElem?_map, List.getElem?_range hk', Option.map_some, Option.getD_some]
  rw [Finset.sum_mul]
  exact Finset.sum_le_sum fun i _ => (h i Ω P W τ H hW hτ hH hH1 k (by have := hτ.monotone hk; linarith)).2.1 hname

/-- **C124.** Weak order one, for the mean, of `euler`, `milstein_ito` and `eulerHeun`: the mean of every component of the returned
states differs from the mean of the exact solution by at most `C H`. -/
theorem C124_mean_partial {name : String} {noise type : Option String} (hacc : Accepts name noise type)
    (hname : name ≠ "milstein_stratonovich") (a b x0 : ι → ℝ) (T : ℝ) :
    ∃ C, ∀ (Ω : Type) [MeasurableSpace Ω] (P : Measure Ω) [IsProbabilityMeasure P] (W : Ω → ℝ → ι → ℝ) (τ : ℕ → ℝ) (H : ℝ),
      GaussianSteps P W τ → StrictMono τ → (∀ k, τ (k + 1) - τ k ≤ H) → H ≤ 1 → ∀ n, 1 ≤ n → τ n - τ 0 ≤ T →
      ∃ sol : Ω → List (ι → ℝ),
        (∀ ω, sdeint (m := Except PyErr) Real.sqrt (.sdeFunc (pureSde (fun _ x => a * x) (fun _ x => b * x) noise type)) x0
          (gridOf τ n) (.inl name) (pathBm (W ω)) [] = .ok (gridOf τ n, sol ω)) ∧
        ∀ k ≤ n, ∀ i, |∫ ω, (sol ω).getD k 0 i ∂P - ∫ ω, namedSolution name W (τ 0) a b x0 ω (τ k) i ∂P| ≤ C * H := by
  choose C hC h using fun i => order_error hacc a b x0 T i
  refine ⟨∑ i, C i, fun Ω _ P _ W τ H hW hτ hH hH1 n hn1 hT => ?_⟩
  obtain ⟨sol, h1, h2⟩ := C114_schemes (hW.brownian hτ) hτ a b x0 hacc n hn1
  refine ⟨sol, h1, fun k hk i => ?_⟩
  have H0 : 0 ≤ H := (sub_nonneg.2 (hτ (Nat.lt_succ_self 0)).le).trans (hH 0)
  rw [h2 k hk i]
  simp only [meanFactor_named hacc hname]
  refine ((h i Ω P W τ H hW hτ hH hH1 k (by have := hτ.monotone hk; linarith)).2.2 hname).trans ?_
  exact mul_le_mul_of_nonneg_right (Finset.single_le_sum (f := C) (fun j _ => hC j) (Finset.mem_univ i)) H0

/-- The grid `t0, t0 + h, t0 + 2 h, …`. -/
noncomputable def stepGrid (t0 h : ℝ) (k : ℕ) : ℝ := t0 + k * h

theorem stepGrid_succ (t0 h : ℝ) (k : ℕ) : stepGrid t0 h (k + 1) - stepGrid t0 h k = h := by
  simp only [stepGrid]; push_cast; ring

theorem stepGrid_zero (t0 h : ℝ) : stepGrid t0 h 0 = t0 := by simp [stepGrid]

theorem stepGrid_strictMono (t0 : ℝ) {h : ℝ} (h0 : 0 < h) : StrictMono (stepGrid t0 h) :=
  strictMono_nat_of_lt_succ fun k => by have := stepGrid_succ t0 h k; linarith

theorem exp_pow_gap {x : ℝ} (h : 0 ≤ x) (k : ℕ) : (1 + x) ^ k + k * (x ^ 2 / 2) ≤ Real.exp (x * k) := by
  have h1 : 1 + x + x ^ 2 / 2 ≤ Real.exp x := Real.quadratic_le_exp_of_nonneg h
  have h2 : (1 + x) ^ k + k * (x ^ 2 / 2) ≤ (1 + x + x ^ 2 / 2) ^ k := by
    induction k with
    | zero => simp
    | succ k ih =>
      have h3 : 1 ≤ (1 + x) ^ k := one_le_pow₀ (by linarith)
      have h4 := mul_le_mul_of_nonneg_right ih (by positivity : 0 ≤ 1 + x + x ^ 2 / 2)
      have h5 := mul_le_mul_of_nonneg_right h3 (by positivity : 0 ≤ x ^ 2 / 2)
      have h6 : 0 ≤ (k : ℝ) * (x ^ 2 / 2) * (x + x ^ 2 / 2) := by positivity
      rw [pow_succ (1 + x) k, pow_succ (1 + x + x ^ 2 / 2) k]
      push_cast
      nlinarith
  calc _ ≤ (1 + x + x ^ 2 / 2) ^ k := h2
    _ ≤ Real.exp x ^ k := pow_le_pow_left₀ (by positivity) h1 k
    _ = Real.exp (x * k) := by rw [← Real.exp_nat_mul]; congr 1; ring

/-- **C124, refuted.** `EulerMaruyama` declares order `1` (sde.py:21). Its strong order is not better than one half: for
`dX_i = b_i X_i dW_i` the mean-square error at time `t0 + t` on the grid of spacing `h` is at least `b_i⁴ x0_i² t h / 2`. -/
theorem C124_euler_refuted {Ω : Type} [MeasurableSpace Ω] (P : Measure Ω) [IsProbabilityMeasure P] (W : Ω → ℝ → ι → ℝ) {t0 h : ℝ}
    (h0 : 0 < h) (hW : GaussianSteps P W (stepGrid t0 h)) (b x0 : ι → ℝ) {noise type : Option String}
    (hacc : Accepts "euler" noise type) (n : ℕ) (hn1 : 1 ≤ n) :
    ∃ sol : Ω → List (ι → ℝ),
      (∀ ω, sdeint (m := Except PyErr) Real.sqrt (.sdeFunc (pureSde (fun _ x => 0 * x) (fun _ x => b * x) noise type)) x0
        (gridOf (stepGrid t0 h) n) (.inl "euler") (pathBm (W ω)) [] = .ok (gridOf (stepGrid t0 h) n, sol ω)) ∧
      ∀ k ≤ n, ∀ i, b i ^ 4 * x0 i ^ 2 * (k * h) / 2 * h ≤
        ∫ ω, ((sol ω).getD k 0 i - itoSolution W t0 0 b x0 ω (t0 + k * h) i) ^ 2 ∂P := by
  have hτ := stepGrid_strictMono t0 h0
  refine ⟨_, fun ω => sdeint_linear W hτ 0 b x0 hacc n hn1 ω, fun k hk i => ?_⟩
  have hk' : k < n + 1 := by omega
  simp only [List.getD_eq_getElem?_getD, List.getElem?_map, List.getElem?_range hk', Option.map_some, Option.getD_some]
  have := (linear_error hW hτ (fun k => linP "euler" 0 b (stepGrid t0 h (k + 1) - stepGrid t0 h k))
    (fun k => linR "euler" 0 b (stepGrid t0 h (k + 1) - stepGrid t0 h k)) 0 b x0 k i).1
  rw [stepGrid_zero] at this
  have e : ∀ ω, itoSolution W t0 0 b x0 ω (t0 + k * h) i = expSolution W t0 0 b x0 ω (stepGrid t0 h k) i := fun ω => rfl
  simp only [e]
  rw [this]
  have e1 : ∀ j, runFactor (linP "euler" (0 : ι → ℝ) b (stepGrid t0 h (j + 1) - stepGrid t0 h j) i) (b i)
      (linR "euler" (0 : ι → ℝ) b (stepGrid t0 h (j + 1) - stepGrid t0 h j) i) (stepGrid t0 h (j + 1) - stepGrid t0 h j) =
      1 + b i ^ 2 * h := fun j => by rw [stepGrid_succ]; simp [runFactor, linP, linR]
  have e2 : ∀ j, mixFactor ((0 : ι → ℝ) i) (linP "euler" (0 : ι → ℝ) b (stepGrid t0 h (j + 1) - stepGrid t0 h j) i) (b i)
      (linR "euler" (0 : ι → ℝ) b (stepGrid t0 h (j + 1) - stepGrid t0 h j) i) (stepGrid t0 h (j + 1) - stepGrid t0 h j) =
      1 + b i ^ 2 * h := fun j => by rw [stepGrid_succ]; simp [mixFactor, linP, linR]
  have e3 : ∀ j, solFactor ((0 : ι → ℝ) i) (b i) (stepGrid t0 h (j + 1) - stepGrid t0 h j) = Real.exp (b i ^ 2 * h) := fun j => by
    rw [stepGrid_succ]; simp [solFactor]
  simp only [e1, e2, e3, Finset.prod_const, Finset.card_range]
  have h1 := exp_pow_gap (x := b i ^ 2 * h) (by positivity) k
  have h2 : Real.exp (b i ^ 2 * h) ^ k = Real.exp (b i ^ 2 * h * k) := by rw [← Real.exp_nat_mul]; congr 1; ring
  rw [h2]
  have h3 : k * ((b i ^ 2 * h) ^ 2 / 2) ≤ (1 + b i ^ 2 * h) ^ k - 2 * (1 + b i ^ 2 * h) ^ k + Real.exp (b i ^ 2 * h * k) := by linarith
  refine le_trans (le_of_eq ?_) (mul_le_mul_of_nonneg_right h3 (sq_nonneg (x0 i)))
  ring

open Filter in
/-- `√n ((1 + c/n + κ/n^(3/2))^n - e^c) → κ e^c`. -/
theorem spoiled_exp (c κ : ℝ) : Tendsto (fun n : ℕ => √n * ((1 + (c / n + κ / (n * √n))) ^ n - Real.exp c)) atTop (nhds (κ * Real.exp c)) := by
  have hs : Tendsto (fun n : ℕ => √(n : ℝ)) atTop atTop := Real.tendsto_sqrt_atTop.comp tendsto_natCast_atTop_atTop
  have hi : Tendsto (fun n : ℕ => (√(n : ℝ))⁻¹) atTop (nhds 0) := tendsto_inv_atTop_zero.comp hs
  -- in terms of w = 1/√n
  obtain ⟨w, hw⟩ : ∃ w : ℕ → ℝ, w = fun n : ℕ => (√(n : ℝ))⁻¹ := ⟨_, rfl⟩
  have hw0 : Tendsto w atTop (nhds 0) := by rw [hw]; exact hi
  obtain ⟨u, hu⟩ : ∃ u : ℕ → ℝ, u = fun n => c * w n ^ 2 + κ * w n ^ 3 := ⟨_, rfl⟩
  have hu0 : Tendsto u atTop (nhds 0) := by
    rw [hu]
    have := ((hw0.pow 2).const_mul c).add ((hw0.pow 3).const_mul κ)
    simpa using this
  have hsmall : ∀ᶠ n in atTop, |u n| ≤ 1 / 2 := by
    have := (hu0.abs).eventually (ge_mem_nhds (by norm_num : |(0 : ℝ)| < 1 / 2))
    simpa using this
  have hpos : ∀ᶠ n : ℕ in atTop, 0 < n := eventually_gt_atTop 0
  have hwn : ∀ n : ℕ, 0 < n → (n : ℝ) * w n ^ 2 = 1 ∧ √(n : ℝ) * w n = 1 ∧ 0 < w n := by
    intro n hn
    have h1 : (0 : ℝ) < n := by exact_mod_cast hn
    have h2 : 0 < √(n : ℝ) := Real.sqrt_pos.2 h1
    rw [hw]
    refine ⟨?_, mul_inv_cancel₀ h2.ne', inv_pos.2 h2⟩
    simp only [inv_pow, Real.sq_sqrt h1.le]
    exact mul_inv_cancel₀ h1.ne'
  -- the exponent
  obtain ⟨δ, hδ⟩ : ∃ δ : ℕ → ℝ, δ = fun n : ℕ => n * Real.log (1 + u n) - c := ⟨_, rfl⟩
  have hlog : ∀ᶠ n : ℕ in atTop, |√n * δ n - κ| ≤ 2 * (|c| + |κ| * w n) ^ 2 * w n := by
    filter_upwards [hsmall, hpos] with n hn hp
    obtain ⟨h1, h2, h3⟩ := hwn n hp
    have hl := Real.abs_log_sub_add_sum_range_le (x := -u n) (by rw [abs_neg]; linarith) 1
    simp only [Finset.sum_range_one, abs_neg, sub_neg_eq_add] at hl
    norm_num at hl
    have hl2 : |Real.log (1 + u n) - u n| ≤ 2 * u n ^ 2 := by
      have e : -u n + Real.log (1 + u n) = Real.log (1 + u n) - u n := by ring
      rw [e] at hl
      refine hl.trans ?_
      rw [div_le_iff₀ (by linarith)]
      nlinarith [sq_nonneg (u n)]
    have e : √n * δ n - κ = (√n * n) * (Real.log (1 + u n) - u n) := by
      have e1 : √(n : ℝ) * n * u n = √n * c + κ := by
        rw [hu]
        simp only
        linear_combination (√(n : ℝ) * c + √(n : ℝ) * w n * κ) * h1 + κ * h2
      rw [hδ]
      simp only
      linear_combination e1
    have hu2 : |u n| ≤ (|c| + |κ| * w n) * w n ^ 2 := by
      rw [hu]
      refine (abs_add_le _ _).trans (le_of_eq ?_)
      rw [abs_mul, abs_mul, abs_pow, abs_pow, abs_of_pos h3]
      ring
    have hnn : 0 ≤ √(n : ℝ) * n := by positivity
    rw [e, abs_mul, abs_of_nonneg hnn]
    have hu3 : u n ^ 2 ≤ ((|c| + |κ| * w n) * w n ^ 2) ^ 2 := by
      rw [← sq_abs (u n)]
      exact pow_le_pow_left₀ (abs_nonneg _) hu2 2
    calc √(n : ℝ) * n * |Real.log (1 + u n) - u n| ≤ √(n : ℝ) * n * (2 * ((|c| + |κ| * w n) * w n ^ 2) ^ 2) :=
          mul_le_mul_of_nonneg_left (by linarith) hnn
      _ = 2 * (|c| + |κ| * w n) ^ 2 * w n * ((n * w n ^ 2) * (√n * w n)) := by ring
      _ = _ := by rw [h1, h2]; ring
  have hδ1 : Tendsto (fun n : ℕ => √n * δ n) atTop (nhds κ) := by
    have hz : Tendsto (fun n => 2 * (|c| + |κ| * w n) ^ 2 * w n) atTop (nhds 0) := by
      have := (((((hw0.const_mul |κ|).const_add |c|).pow 2).const_mul 2)).mul hw0
      simpa using this
    rw [tendsto_iff_norm_sub_tendsto_zero]
    exact squeeze_zero' (Eventually.of_forall fun _ => norm_nonneg _) (by simpa only [Real.norm_eq_abs] using hlog) hz
  have hδ0 : Tendsto δ atTop (nhds 0) := by
    have h1 : Tendsto (fun n : ℕ => w n * (√n * δ n)) atTop (nhds 0) := by simpa using hw0.mul hδ1
    refine h1.congr' ?_
    filter_upwards [hpos] with n hp
    obtain ⟨-, h2, -⟩ := hwn n hp
    linear_combination δ n * h2
  have hδs : ∀ᶠ n in atTop, |δ n| ≤ 1 := by
    have := (hδ0.abs).eventually (ge_mem_nhds (by norm_num : |(0 : ℝ)| < 1))
    simpa using this
  have hexp : Tendsto (fun n : ℕ => √n * (Real.exp (δ n) - 1)) atTop (nhds κ) := by
    have hz : Tendsto (fun n : ℕ => |√n * δ n| * |δ n|) atTop (nhds 0) := by simpa using hδ1.abs.mul hδ0.abs
    have hd : Tendsto (fun n : ℕ => √n * (Real.exp (δ n) - 1) - √n * δ n) atTop (nhds 0) := by
      rw [tendsto_zero_iff_norm_tendsto_zero]
      refine squeeze_zero' (Eventually.of_forall fun _ => norm_nonneg _) ?_ hz
      filter_upwards [hδs] with n hn
      have h1 := Real.abs_exp_sub_one_sub_id_le hn
      rw [Real.norm_eq_abs, ← mul_sub, abs_mul, abs_mul, mul_assoc]
      refine mul_le_mul_of_nonneg_left (h1.trans (le_of_eq ?_)) (abs_nonneg _)
      rw [← abs_mul, ← pow_two, abs_of_nonneg (sq_nonneg _)]
    have := hd.add hδ1
    simpa using this
  have := hexp.mul_const (Real.exp c)
  refine this.congr' ?_
  filter_upwards [hsmall, hpos] with n hn hp
  have hp' : 0 < 1 + u n := by have := (abs_le.1 hn).1; linarith
  have e1 : u n = c / n + κ / (n * √n) := by
    have h1 : (0 : ℝ) < n := by exact_mod_cast hp
    have h2 : 0 < √(n : ℝ) := Real.sqrt_pos.2 h1
    rw [hu, hw]
    simp only [inv_pow]
    rw [pow_succ √(n : ℝ) 2, Real.sq_sqrt h1.le]
    rfl
  have e2 : (1 + u n) ^ n = Real.exp (δ n) * Real.exp c := by
    rw [hδ, ← Real.exp_add, sub_add_cancel, Real.exp_nat_mul, Real.exp_log hp']
  rw [← e1, e2]
  ring

open Filter in
/-- **C124, refuted.** The mean of `milstein_stratonovich` does not converge with order one: for
`dX_i = a_i X_i dt + b_i X_i ∘ dW_i` and `n` equal steps over `[t0, t0 + T]`, the mean of the returned state exceeds the mean of the
solution by about `a_i b_i T^(3/2) exp ((a_i + b_i²/2) T) x0_i / (2 √n)`. (The supporting value `x + f dt + g √dt` of sde.py:83 contains
the drift, which shifts the coefficient of `ΔW²` by `a b √h / 2`.) -/
theorem C124_stratonovich_bias_refuted {Ω : ℕ → Type} [∀ n, MeasurableSpace (Ω n)] (P : ∀ n, Measure (Ω n)) [∀ n, IsProbabilityMeasure (P n)]
    (W : ∀ n, Ω n → ℝ → ι → ℝ) (t0 : ℝ) {T : ℝ} (hT : 0 < T) (hW : ∀ n : ℕ, 1 ≤ n → GaussianSteps (P n) (W n) (stepGrid t0 (T / n)))
    (a b x0 : ι → ℝ) (noise type : Option String) (i : ι) :
    ∃ sol : ∀ n, Ω n → List (ι → ℝ),
      (∀ n : ℕ, 1 ≤ n → ∀ ω, sdeint (m := Except PyErr) Real.sqrt (.sdeFunc (pureSde (fun _ x => a * x) (fun _ x => b * x) noise type)) x0
        (gridOf (stepGrid t0 (T / n)) n) (.inl "milstein_stratonovich") (pathBm (W n ω)) [] =
          .ok (gridOf (stepGrid t0 (T / n)) n, sol n ω)) ∧
      Tendsto (fun n : ℕ => √n * (∫ ω, (sol n ω).getD n 0 i ∂P n - ∫ ω, stratonovichSolution (W n) t0 a b x0 ω (t0 + T) i ∂P n)) atTop
        (nhds (a i * b i / 2 * (T * √T) * Real.exp ((a i + b i ^ 2 / 2) * T) * x0 i)) := by
  have hacc := Accepts.milsteinStratonovich noise type
  have h0 : ∀ n : ℕ, 1 ≤ n → 0 < T / n := fun n hn => div_pos hT (by exact_mod_cast hn)
  refine ⟨fun n ω => (List.range (n + 1)).map (quadState (W n) (stepGrid t0 (T / n)) (fun k => linP "milstein_stratonovich" a b
      (stepGrid t0 (T / n) (k + 1) - stepGrid t0 (T / n) k)) (fun _ => b) (fun k => linR "milstein_stratonovich" a b
      (stepGrid t0 (T / n) (k + 1) - stepGrid t0 (T / n) k)) x0 ω),
    fun n hn ω => sdeint_linear (W n) (stepGrid_strictMono t0 (h0 n hn)) a b x0 hacc n hn ω, ?_⟩
  have lim := (spoiled_exp ((a i + b i ^ 2 / 2) * T) (a i * b i / 2 * (T * √T))).mul_const (x0 i)
  refine lim.congr' ?_
  filter_upwards [eventually_ge_atTop 1] with n hn
  have hτ := stepGrid_strictMono t0 (h0 n hn)
  have hn0 : (0 : ℝ) < n := by exact_mod_cast hn
  have hk' : n < n + 1 := by omega
  simp only [List.getD_eq_getElem?_getD, List.getElem?_map, List.getElem?_range hk', Option.map_some, Option.getD_some]
  have m1 := ((quadState_mean ((hW n hn).brownian hτ) (fun k => linP "milstein_stratonovich" a b
      (stepGrid t0 (T / n) (k + 1) - stepGrid t0 (T / n) k)) (fun _ => b) (fun k => linR "milstein_stratonovich" a b
      (stepGrid t0 (T / n) (k + 1) - stepGrid t0 (T / n) k)) x0 n).2 i).2
  have m2 := (linear_error (hW n hn) hτ (fun k => linP "milstein_stratonovich" a b
      (stepGrid t0 (T / n) (k + 1) - stepGrid t0 (T / n) k)) (fun k => linR "milstein_stratonovich" a b
      (stepGrid t0 (T / n) (k + 1) - stepGrid t0 (T / n) k)) (fun i => namedRate "milstein_stratonovich" (a i) (b i)) b x0 n i).2.1
  have e : ∀ ω, stratonovichSolution (W n) t0 a b x0 ω (t0 + T) i =
      expSolution (W n) (stepGrid t0 (T / n) 0) (fun i => namedRate "milstein_stratonovich" (a i) (b i)) b x0 ω (stepGrid t0 (T / n) n) i := by
    intro ω
    have e1 : stepGrid t0 (T / n) n = t0 + T := by rw [stepGrid, mul_div_cancel₀ _ hn0.ne']
    rw [stepGrid_zero, e1, ← namedSolution_exp]
    rfl
  simp only [e]
  rw [m1, m2, prod_exp_grid]
  have e2 : stepGrid t0 (T / n) n - stepGrid t0 (T / n) 0 = T := by
    rw [stepGrid_zero, stepGrid, mul_div_cancel₀ _ hn0.ne', add_sub_cancel_left]
  have e3 : ∀ j, linP "milstein_stratonovich" a b (stepGrid t0 (T / n) (j + 1) - stepGrid t0 (T / n) j) i +
      linR "milstein_stratonovich" a b (stepGrid t0 (T / n) (j + 1) - stepGrid t0 (T / n) j) i *
        (stepGrid t0 (T / n) (j + 1) - stepGrid t0 (T / n) j) =
      1 + ((a i + b i ^ 2 / 2) * T / n + a i * b i / 2 * (T * √T) / (n * √n)) := by
    intro j
    rw [stepGrid_succ]
    simp [linP, linR]
    have := Real.sqrt_pos.2 hn0
    field_simp
    ring
  simp only [e2, e3, Finset.prod_const, Finset.card_range]
  have e4 : namedRate "milstein_stratonovich" (a i) (b i) = a i + b i ^ 2 / 2 := by simp [namedRate]
  rw [e4]
  ring

open Filter in
/-- **C124, refuted.** `MilesteinStratonovich` declares order `1` (sde.py:66). Whenever `a_i b_i x0_i ≠ 0` there is no constant `C`
such that the mean-square error after `n` equal steps is at most `C (T/n)²`. -/
theorem C124_stratonovich_refuted {Ω : ℕ → Type} [∀ n, MeasurableSpace (Ω n)] (P : ∀ n, Measure (Ω n)) [∀ n, IsProbabilityMeasure (P n)]
    (W : ∀ n, Ω n → ℝ → ι → ℝ) (t0 : ℝ) {T : ℝ} (hT : 0 < T) (hW : ∀ n : ℕ, 1 ≤ n → GaussianSteps (P n) (W n) (stepGrid t0 (T / n)))
    (a b x0 : ι → ℝ) (noise type : Option String) (i : ι) (h0 : a i * b i * x0 i ≠ 0) :
    ¬ ∃ C, ∀ n : ℕ, 1 ≤ n → ∀ sol : Ω n → List (ι → ℝ),
      (∀ ω, sdeint (m := Except PyErr) Real.sqrt (.sdeFunc (pureSde (fun _ x => a * x) (fun _ x => b * x) noise type)) x0
        (gridOf (stepGrid t0 (T / n)) n) (.inl "milstein_stratonovich") (pathBm (W n ω)) [] =
          .ok (gridOf (stepGrid t0 (T / n)) n, sol ω)) →
      ∫ ω, ((sol ω).getD n 0 i - stratonovichSolution (W n) t0 a b x0 ω (t0 + T) i) ^ 2 ∂P n ≤ C * (T / n) ^ 2 := by
  rintro ⟨C, hC⟩
  obtain ⟨sol, hs, hlim⟩ := C124_stratonovich_bias_refuted P W t0 hT hW a b x0 noise type i
  obtain ⟨L, hL⟩ : ∃ L, L = a i * b i / 2 * (T * √T) * Real.exp ((a i + b i ^ 2 / 2) * T) * x0 i := ⟨_, rfl⟩
  rw [← hL] at hlim
  have hL0 : L ≠ 0 := by
    have h1 : a i ≠ 0 := fun h => h0 (by rw [h]; ring)
    have h2 : b i ≠ 0 := fun h => h0 (by rw [h]; ring)
    have h3 : x0 i ≠ 0 := fun h => h0 (by rw [h]; ring)
    have h4 := (Real.sqrt_pos.2 hT).ne'
    rw [hL]
    have h5 := (Real.exp_pos ((a i + b i ^ 2 / 2) * T)).ne'
    have := hT.ne'
    positivity
  have hsq := hlim.pow 2
  have hz : Tendsto (fun n : ℕ => C * T ^ 2 * (n : ℝ)⁻¹) atTop (nhds 0) := by
    have := (tendsto_inv_atTop_zero.comp (tendsto_natCast_atTop_atTop (R := ℝ))).const_mul (C * T ^ 2)
    simpa using this
  have hle : L ^ 2 ≤ 0 := by
    refine le_of_tendsto_of_tendsto hsq hz ?_
    filter_upwards [eventually_ge_atTop 1] with n hn
    have hn0 : (0 : ℝ) < n := by exact_mod_cast hn
    have hh : 0 < T / n := div_pos hT hn0
    have hτ := stepGrid_strictMono t0 hh
    have hb := hC n hn (sol n) (hs n hn)
    -- the run is the one computed before
    have hsol : sol n = fun ω => (List.range (n + 1)).map (quadState (W n) (stepGrid t0 (T / n)) (fun k => linP "milstein_stratonovich" a b
        (stepGrid t0 (T / n) (k + 1) - stepGrid t0 (T / n) k)) (fun _ => b) (fun k => linR "milstein_stratonovich" a b
        (stepGrid t0 (T / n) (k + 1) - stepGrid t0 (T / n) k)) x0 ω) := by
      funext ω
      have h1 := hs n hn ω
      rw [sdeint_linear (W n) hτ a b x0 (Accepts.milsteinStratonovich noise type) n hn ω] at h1
      simpa using h1.symm
    have hk' : n < n + 1 := by omega
    have e1 : ∀ ω, (sol n ω).getD n 0 i = quadState (W n) (stepGrid t0 (T / n)) (fun k => linP "milstein_stratonovich" a b
        (stepGrid t0 (T / n) (k + 1) - stepGrid t0 (T / n) k)) (fun _ => b) (fun k => linR "milstein_stratonovich" a b
        (stepGrid t0 (T / n) (k + 1) - stepGrid t0 (T / n) k)) x0 ω n i := by
      intro ω
      rw [hsol]
      simp only [List.getD_eq_getElem?_getD, List.getElem?_map, List.getElem?_range hk', Option.map_some, Option.getD_some]
    have e2 : ∀ ω, stratonovichSolution (W n) t0 a b x0 ω (t0 + T) i =
        expSolution (W n) (stepGrid t0 (T / n) 0) (fun i => namedRate "milstein_stratonovich" (a i) (b i)) b x0 ω (stepGrid t0 (T / n) n) i := by
      intro ω
      have e1 : stepGrid t0 (T / n) n = t0 + T := by rw [stepGrid, mul_div_cancel₀ _ hn0.ne']
      rw [stepGrid_zero, e1, ← namedSolution_exp]
      rfl
    simp only [e1, e2] at hb ⊢
    obtain ⟨-, -, iX, iY⟩ := linear_error (hW n hn) hτ (fun k => linP "milstein_stratonovich" a b
      (stepGrid t0 (T / n) (k + 1) - stepGrid t0 (T / n) k)) (fun k => linR "milstein_stratonovich" a b
      (stepGrid t0 (T / n) (k + 1) - stepGrid t0 (T / n) k)) (fun i => namedRate "milstein_stratonovich" (a i) (b i)) b x0 n i
    have hB := (hW n hn).brownian hτ
    have mX : Measurable (fun ω => quadState (W n) (stepGrid t0 (T / n)) (fun k => linP "milstein_stratonovich" a b
        (stepGrid t0 (T / n) (k + 1) - stepGrid t0 (T / n) k)) (fun _ => b) (fun k => linR "milstein_stratonovich" a b
        (stepGrid t0 (T / n) (k + 1) - stepGrid t0 (T / n) k)) x0 ω n i) :=
      ((measurable_pi_apply i).comp (quadState_mean hB _ _ _ x0 n).1).mono (pastOf_le hB n) le_rfl
    have mY := expSolution_measurable hB (fun i => namedRate "milstein_stratonovich" (a i) (b i)) b x0 n i
    obtain ⟨X, hX⟩ : ∃ X : Ω n → ℝ, X = fun ω => quadState (W n) (stepGrid t0 (T / n)) (fun k => linP "milstein_stratonovich" a b
        (stepGrid t0 (T / n) (k + 1) - stepGrid t0 (T / n) k)) (fun _ => b) (fun k => linR "milstein_stratonovich" a b
        (stepGrid t0 (T / n) (k + 1) - stepGrid t0 (T / n) k)) x0 ω n i := ⟨_, rfl⟩
    obtain ⟨Y, hY⟩ : ∃ Y : Ω n → ℝ, Y = fun ω => expSolution (W n) (stepGrid t0 (T / n) 0)
      (fun i => namedRate "milstein_stratonovich" (a i) (b i)) b x0 ω (stepGrid t0 (T / n) n) i := ⟨_, rfl⟩
    have hXL : MemLp X 2 (P n) := by rw [hX]; exact (memLp_two_iff_integrable_sq mX.aestronglyMeasurable).2 iX
    have hYL : MemLp Y 2 (P n) := by rw [hY]; exact (memLp_two_iff_integrable_sq mY.aestronglyMeasurable).2 iY
    have jensen : (∫ ω, X ω ∂P n - ∫ ω, Y ω ∂P n) ^ 2 ≤ ∫ ω, (X ω - Y ω) ^ 2 ∂P n := by
      have hD := hXL.sub hYL
      have h1 := variance_eq_sub hD
      have h2 := variance_nonneg (X - Y) (P n)
      have h3 : ∫ ω, (X - Y) ω ∂P n = ∫ ω, X ω ∂P n - ∫ ω, Y ω ∂P n :=
        integral_sub (hXL.integrable one_le_two) (hYL.integrable one_le_two)
      have h4 : ∫ ω, ((X - Y) ^ 2) ω ∂P n = ∫ ω, (X ω - Y ω) ^ 2 ∂P n := rfl
      rw [h3, h4] at h1
      linarith
    rw [show (fun ω => quadState (W n) (stepGrid t0 (T / n)) (fun k => linP "milstein_stratonovich" a b
        (stepGrid t0 (T / n) (k + 1) - stepGrid t0 (T / n) k)) (fun _ => b) (fun k => linR "milstein_stratonovich" a b
        (stepGrid t0 (T / n) (k + 1) - stepGrid t0 (T / n) k)) x0 ω n i) = X from hX.symm,
      show (fun ω => expSolution (W n) (stepGrid t0 (T / n) 0)
      (fun i => namedRate "milstein_stratonovich" (a i) (b i)) b x0 ω (stepGrid t0 (T / n) n) i) = Y from hY.symm]
    have hb' : ∫ ω, (X ω - Y ω) ^ 2 ∂P n ≤ C * (T / n) ^ 2 := by rw [hX, hY]; exact hb
    rw [mul_pow, Real.sq_sqrt hn0.le]
    have := mul_le_mul_of_nonneg_left (jensen.trans hb') hn0.le
    refine this.trans (le_of_eq ?_)
    field_simp
  have := pow_pos (abs_pos.2 hL0) 2
  rw [sq_abs] at this
  linarith

end orders

/-! ### The hypotheses are met -/

section existence

variable {Ω : Type} [MeasurableSpace Ω] {ι : Type} [Fintype ι]

open scoped NNReal in
/-- The increments of independent Brownian motions over any grid of nonnegative times. -/
theorem gaussianSteps_of_brownian {P : Measure Ω} [IsProbabilityMeasure P] {B : ι → ℝ≥0 → Ω → ℝ} (hm : ∀ i t, Measurable (B i t))
    (hB : ∀ i, IsPreBrownianReal (B i) P) (hind : iIndepFun (fun i ω t => B i t ω) P) {τ : ℕ → ℝ} (hτ : StrictMono τ)
    (h0 : 0 ≤ τ 0) : GaussianSteps P (fun ω t i => B i t.toNNReal ω) τ where
  meas := (brownianSteps_of_brownian hm hB hind hτ h0).meas
  indep := (brownianSteps_of_brownian hm hB hind hτ h0).indep
  law k i := by
    have hpos : ∀ k, 0 ≤ τ k := fun k => h0.trans (hτ.monotone (Nat.zero_le k))
    have := (hB i).hasLaw_sub (τ (k + 1)).toNNReal (τ k).toNNReal
    have e : nndist ((τ (k + 1)).toNNReal : ℝ) ((τ k).toNNReal : ℝ) = Real.toNNReal (τ (k + 1) - τ k) := by
      have hk : 0 ≤ τ (k + 1) - τ k := sub_nonneg.2 (hτ (Nat.lt_succ_self k)).le
      rw [Real.coe_toNNReal _ (hpos _), Real.coe_toNNReal _ (hpos _)]
      ext
      rw [coe_nndist, Real.dist_eq, abs_of_nonneg hk, Real.coe_toNNReal _ hk]
    rw [← e]
    exact this.map_eq

/-- On every grid there is such a path. -/
theorem exists_gaussianSteps {τ : ℕ → ℝ} (hτ : StrictMono τ) :
    ∃ (P : Measure (ℕ → ι → ℝ)) (W : (ℕ → ι → ℝ) → ℝ → ι → ℝ), IsProbabilityMeasure P ∧ GaussianSteps P W τ := by
  let v : ℕ → NNReal := fun k => Real.toNNReal (τ (k + 1) - τ k)
  let Q : ℕ → Measure (ι → ℝ) := fun k => Measure.pi fun _ : ι => gaussianReal 0 (v k)
  let W : (ℕ → ι → ℝ) → ℝ → ι → ℝ := fun ω t => ∑ j ∈ Finset.range (Function.invFun τ t), ω j
  have hinv : ∀ k, Function.invFun τ (τ k) = k := Function.leftInverse_invFun hτ.injective
  have hinc : ∀ (k : ℕ) (ω : ℕ → ι → ℝ), W ω (τ (k + 1)) - W ω (τ k) = ω k := by
    intro k ω
    simp only [W, hinv, Finset.sum_range_succ, add_sub_cancel_left]
  have hinci : ∀ (k : ℕ) (i : ι) (ω : ℕ → ι → ℝ), W ω (τ (k + 1)) i - W ω (τ k) i = ω k i := by
    intro k i ω
    rw [← hinc k ω, Pi.sub_apply]
  refine ⟨Measure.infinitePi Q, W, inferInstance, ⟨?_, ?_, ?_⟩⟩
  · intro k
    simp only [hinc]
    exact measurable_pi_apply k
  · simp only [hinc]
    exact iIndepFun_infinitePi (X := fun _ => id) fun _ => measurable_id
  · intro k i
    simp only [hinci]
    exact ((measurePreserving_eval (fun _ : ι => gaussianReal 0 (v k)) i).comp (measurePreserving_eval_infinitePi Q k)).map_eq

/-- The hypotheses of `C124_half`, `C124_one_partial` and `C124_mean_partial` are met by grids of spacing `1/N`. -/
example (N : ℕ) : ∃ (P : Measure (ℕ → Fin 2 → ℝ)) (W : (ℕ → Fin 2 → ℝ) → ℝ → Fin 2 → ℝ),
    IsProbabilityMeasure P ∧ GaussianSteps P W (stepGrid 3 (1 / (N + 1))) ∧ StrictMono (stepGrid 3 (1 / ((N : ℝ) + 1))) ∧
    (∀ k, stepGrid 3 (1 / ((N : ℝ) + 1)) (k + 1) - stepGrid 3 (1 / ((N : ℝ) + 1)) k ≤ 1 / (N + 1)) ∧ 1 / ((N : ℝ) + 1) ≤ 1 ∧
    stepGrid 3 (1 / ((N : ℝ) + 1)) (2 * (N + 1)) - stepGrid 3 (1 / ((N : ℝ) + 1)) 0 ≤ 2 := by
  have h0 : (0 : ℝ) < N + 1 := by positivity
  have hτ : StrictMono (stepGrid 3 (1 / ((N : ℝ) + 1))) := stepGrid_strictMono 3 (by positivity)
  obtain ⟨P, W, h1, h2⟩ := exists_gaussianSteps (ι := Fin 2) hτ
  refine ⟨P, W, h1, h2, hτ, fun k => (stepGrid_succ 3 _ k).le, ?_, ?_⟩
  · rw [div_le_one h0]
    have : (0 : ℝ) ≤ N := Nat.cast_nonneg N
    linarith
  · simp only [stepGrid]
    push_cast
    field_simp
    linarith

/-- The hypotheses of `C124_stratonovich_refuted` are met: `dX = X dt + X ∘ dW`, `X(0) = 1`, on `[0, 1]`. -/
example : ∃ (P : ℕ → Measure (ℕ → Fin 1 → ℝ)) (W : ℕ → (ℕ → Fin 1 → ℝ) → ℝ → Fin 1 → ℝ), (∀ n, IsProbabilityMeasure (P n)) ∧
    (∀ n : ℕ, 1 ≤ n → GaussianSteps (P n) (W n) (stepGrid 0 (1 / n))) ∧ (1 : Fin 1 → ℝ) 0 * (1 : Fin 1 → ℝ) 0 * (1 : Fin 1 → ℝ) 0 ≠ 0 := by
  have : ∀ n : ℕ, ∃ (P : Measure (ℕ → Fin 1 → ℝ)) (W : (ℕ → Fin 1 → ℝ) → ℝ → Fin 1 → ℝ), IsProbabilityMeasure P ∧
      (1 ≤ n → GaussianSteps P W (stepGrid 0 (1 / n))) := by
    intro n
    by_cases hn : 1 ≤ n
    · have h0 : (0 : ℝ) < n := by exact_mod_cast hn
      obtain ⟨P, W, h1, h2⟩ := exists_gaussianSteps (ι := Fin 1) (stepGrid_strictMono 0 (by positivity : (0 : ℝ) < 1 / n))
      exact ⟨P, W, h1, fun _ => h2⟩
    · exact ⟨Measure.dirac 0, fun _ _ => 0, inferInstance, fun h => absurd h hn⟩
  choose P W h1 h2 using this
  exact ⟨P, W, h1, h2, by norm_num⟩

end existence

end Torchdyn
