import Verif.Props.Sde
import Mathlib.Probability.Independence.Integration
import Mathlib.MeasureTheory.Function.L2Space
import Mathlib.Probability.Moments.Variance
import Mathlib.Probability.Independence.InfinitePi
import Mathlib.Probability.Distributions.Gaussian.Real

/-!
C114: moments of the solvers of `sdeint` (`/repo/torchdyn/numerics/solvers/sde.py:19-109`,
`/repo/torchdyn/numerics/sdeint.py:33-116`): mean, second moment and mean-square stability of Euler–Maruyama, and the mean of
every scheme on linear SDEs.

The Brownian motion of torchsde enters through what the solver can observe of it: its increments over the steps of the grid are
independent, square integrable, of mean zero, and each component has the length of the step as its variance.
-/

set_option linter.unusedSectionVars false

namespace Torchdyn

open Spec MeasureTheory ProbabilityTheory

variable {Ω : Type} [MeasurableSpace Ω] {ι : Type} [Fintype ι]

/-- The increments of `W` over the steps `[τ k, τ (k+1)]` are those of a Brownian motion as far as first and second moments are
concerned. -/
structure BrownianSteps (P : Measure Ω) (W : Ω → ℝ → ι → ℝ) (τ : ℕ → ℝ) : Prop where
  meas : ∀ k, Measurable fun ω => W ω (τ (k + 1)) - W ω (τ k)
  indep : iIndepFun (fun (k : ℕ) ω => W ω (τ (k + 1)) - W ω (τ k)) P
  memLp : ∀ k i, MemLp (fun ω => W ω (τ (k + 1)) i - W ω (τ k) i) 2 P
  mean : ∀ k i, ∫ ω, (W ω (τ (k + 1)) i - W ω (τ k) i) ∂P = 0
  var : ∀ k i, ∫ ω, (W ω (τ (k + 1)) i - W ω (τ k) i) ^ 2 ∂P = τ (k + 1) - τ k

/-- A coefficient function of an SDE: measurable in the state, of linear growth at each time. -/
structure SdeCoefficient (f : ℝ → (ι → ℝ) → ι → ℝ) : Prop where
  meas : ∀ t, Measurable (f t)
  growth : ∀ t, ∃ c, 0 ≤ c ∧ ∀ x i, |f t x i| ≤ c * (1 + ∑ j, |x j|)

/-- The grid `τ 0, …, τ n`. -/
def gridOf (τ : ℕ → ℝ) (n : ℕ) : List ℝ := (List.range (n + 1)).map τ

/-- The `k`-th state along the path `ω`. -/
def emState (f g : ℝ → (ι → ℝ) → ι → ℝ) (W : Ω → ℝ → ι → ℝ) (τ : ℕ → ℝ) (x0 : ι → ℝ) (ω : Ω) : ℕ → ι → ℝ
  | 0 => x0
  | k + 1 => let x := emState f g W τ x0 ω k
    x + (τ (k + 1) - τ k) • f (τ k) x + g (τ k) x * (W ω (τ (k + 1)) - W ω (τ k))

theorem gridStates_range {V : Type} (φ : V → ℝ → ℝ → V) (τ : ℕ → ℝ) (s : ℕ → V)
    (hs : ∀ k, s (k + 1) = φ (s k) (τ k) (τ (k + 1) - τ k)) (n : ℕ) :
    gridStates φ (s 0) (gridOf τ n) = (List.range (n + 1)).map s := by
  induction n generalizing τ s with
  | zero => rfl
  | succ n ih =>
    have h1 : gridOf τ (n + 1) = τ 0 :: gridOf (fun k => τ (k + 1)) n := by
      unfold gridOf
      rw [List.range_succ_eq_map, List.map_cons, List.map_map]
      rfl
    have h2 : gridOf (fun k => τ (k + 1)) n = τ 1 :: (List.range n).map (fun k => τ (k + 2)) := by
      unfold gridOf
      rw [List.range_succ_eq_map, List.map_cons, List.map_map]
      rfl
    have h3 := ih (fun k => τ (k + 1)) (fun k => s (k + 1)) (fun k => hs (k + 1))
    rw [h1, h2, gridStates, ← hs 0, ← h2, h3, List.range_succ_eq_map (n := n + 1), List.map_cons, List.map_map]
    rfl

/-- `sdeint` with `solver='euler'` returns these states along every path. -/
theorem sdeint_emState (sqrt : ℝ → ℝ) (f g : ℝ → (ι → ℝ) → ι → ℝ) (W : Ω → ℝ → ι → ℝ) {τ : ℕ → ℝ} (hτ : StrictMono τ)
    (x0 : ι → ℝ) {noise : String} (hn : noise ∈ ["general", "diagonal", "scalar", "additive"]) (n : ℕ) (hn1 : 1 ≤ n) (ω : Ω) :
    sdeint (m := Except PyErr) sqrt (.sdeFunc (pureSde f g (some noise) (some "ito"))) x0 (gridOf τ n) (.inl "euler")
      (pathBm (W ω)) [] = .ok (gridOf τ n, (List.range (n + 1)).map (emState f g W τ x0 ω)) := by
  obtain ⟨step, hs, e⟩ := sdeint_name (m := Except PyErr) sqrt f g (pathBm (W ω)) (Accepts.euler noise hn) x0 (gridOf τ n)
    (fun step => ∀ x t dt, 0 < dt →
      step x t dt = .ok (.three none (x + dt • f t x + g t x * (W ω (t + dt) - W ω t)) none))
    (fun _ x t dt _ => by simp only [eulerMaruyamaStep, pureSde, pathBm, bind, Except.bind, pure, Except.pure])
    (fun h => absurd h (by decide)) (fun h => absurd h (by decide)) (fun h => absurd h (by decide))
  rw [e, run_of_steps step _ hs x0 (gridOf τ n) (by simp [gridOf]; omega) (by
    unfold gridOf
    rw [List.pairwise_map]
    exact List.pairwise_lt_range.imp fun h => hτ h)]
  have := gridStates_range (fun x t dt => x + dt • f t x + g t x * (W ω (t + dt) - W ω t)) τ (emState f g W τ x0 ω)
    (fun k => by simp [emState]) n
  rw [← this]
  rfl

section moments

variable {P : Measure Ω} [IsProbabilityMeasure P] {W : Ω → ℝ → ι → ℝ} {τ : ℕ → ℝ} {f g : ℝ → (ι → ℝ) → ι → ℝ} {x0 : ι → ℝ}

/-- What is known of the path before step `k`. -/
@[instance_reducible] def pastOf (W : Ω → ℝ → ι → ℝ) (τ : ℕ → ℝ) (k : ℕ) : MeasurableSpace Ω :=
  ⨆ j ∈ Set.Iio k, MeasurableSpace.comap (fun ω => W ω (τ (j + 1)) - W ω (τ j)) inferInstance

theorem pastOf_mono (k : ℕ) : pastOf W τ k ≤ pastOf W τ (k + 1) :=
  biSup_mono fun _ h => lt_trans h (Nat.lt_succ_self k)

theorem pastOf_le (hW : BrownianSteps P W τ) (k : ℕ) : pastOf W τ k ≤ ‹MeasurableSpace Ω› :=
  iSup₂_le fun j _ => (hW.meas j).comap_le

theorem increment_past (k : ℕ) :
    Measurable[pastOf W τ (k + 1)] fun ω => W ω (τ (k + 1)) - W ω (τ k) := by
  rw [measurable_iff_comap_le]
  exact le_iSup₂_of_le (f := fun j (_ : j ∈ Set.Iio (k + 1)) =>
    MeasurableSpace.comap (fun ω => W ω (τ (j + 1)) - W ω (τ j)) inferInstance) k (Nat.lt_succ_self k) le_rfl

/-- The state before step `k` is determined by the increments before. -/
theorem emState_past (hf : SdeCoefficient f) (hg : SdeCoefficient g) (k : ℕ) :
    Measurable[pastOf W τ k] fun ω => emState f g W τ x0 ω k := by
  induction k with
  | zero =>
    show Measurable[pastOf W τ 0] fun _ => x0
    exact measurable_const
  | succ k ih =>
    have h1 : Measurable[pastOf W τ (k + 1)] fun ω => emState f g W τ x0 ω k := ih.mono (pastOf_mono k) le_rfl
    have h2 := (hf.meas (τ k)).comp h1
    have h3 := (hg.meas (τ k)).comp h1
    exact (h1.add (h2.const_smul (τ (k + 1) - τ k))).add (h3.mul (increment_past k))

/-- What is known before step `k` is independent of the increment of step `k`. -/
theorem past_indep (hW : BrownianSteps P W τ) {k : ℕ} {Z : Ω → ℝ} (hZ : Measurable[pastOf W τ k] Z) (i : ι) :
    IndepFun Z (fun ω => W ω (τ (k + 1)) i - W ω (τ k) i) P := by
  have h := indep_iSup_of_disjoint (fun j => (hW.meas j).comap_le) hW.indep (S := Set.Iio k) (T := {k}) (by simp)
  refine indep_of_indep_of_le_left (indep_of_indep_of_le_right h ?_) (measurable_iff_comap_le.1 hZ)
  refine le_trans ?_ (le_iSup₂_of_le (f := fun j (_ : j ∈ ({k} : Set ℕ)) =>
      MeasurableSpace.comap (fun ω => W ω (τ (j + 1)) - W ω (τ j)) inferInstance) k rfl le_rfl)
  have hm : Measurable[MeasurableSpace.comap (fun ω => W ω (τ (k + 1)) - W ω (τ k)) inferInstance]
      fun ω => W ω (τ (k + 1)) i - W ω (τ k) i :=
    (measurable_pi_apply i).comp (comap_measurable fun ω => W ω (τ (k + 1)) - W ω (τ k))
  exact measurable_iff_comap_le.1 hm

theorem indep_moments {ξ B Z : Ω → ℝ} {h : ℝ} (hξ2 : MemLp ξ 2 P) (hξm : ∫ ω, ξ ω ∂P = 0) (hξv : ∫ ω, ξ ω ^ 2 ∂P = h)
    (hB2 : MemLp B 2 P) (hZ2 : MemLp Z 2 P) (i1 : IndepFun Z ξ P) (i2 : IndepFun (fun ω => B ω * Z ω) ξ P) :
    MemLp (fun ω => B ω + Z ω * ξ ω) 2 P ∧ ∫ ω, (B ω + Z ω * ξ ω) ∂P = ∫ ω, B ω ∂P ∧
    ∫ ω, (B ω + Z ω * ξ ω) ^ 2 ∂P = ∫ ω, B ω ^ 2 ∂P + h * ∫ ω, Z ω ^ 2 ∂P := by
  have hξ1 := hξ2.integrable one_le_two
  have hB1 := hB2.integrable one_le_two
  have hZ1 := hZ2.integrable one_le_two
  have hZξ1 : Integrable (fun ω => Z ω * ξ ω) P := i1.integrable_mul hZ1 hξ1
  have i3 : IndepFun (fun ω => Z ω ^ 2) (fun ω => ξ ω ^ 2) P :=
    i1.comp (φ := fun a : ℝ => a ^ 2) (ψ := fun a : ℝ => a ^ 2) (by fun_prop) (by fun_prop)
  have hZs := hZ2.integrable_sq
  have hξs := hξ2.integrable_sq
  have hBs := hB2.integrable_sq
  have hZξs : Integrable (fun ω => Z ω ^ 2 * ξ ω ^ 2) P := i3.integrable_mul hZs hξs
  have hZξ2 : MemLp (fun ω => Z ω * ξ ω) 2 P := by
    refine (memLp_two_iff_integrable_sq hZξ1.aestronglyMeasurable).2 ?_
    refine hZξs.congr (Filter.Eventually.of_forall fun ω => ?_)
    simp only
    ring
  have hBZ : Integrable (fun ω => B ω * Z ω) P := hB2.integrable_mul hZ2
  have hBZξ : Integrable (fun ω => B ω * Z ω * ξ ω) P := i2.integrable_mul hBZ hξ1
  have e1 : ∫ ω, Z ω * ξ ω ∂P = 0 := by
    rw [i1.integral_fun_mul_eq_mul_integral hZ1.aestronglyMeasurable hξ1.aestronglyMeasurable, hξm, mul_zero]
  have e2 : ∫ ω, B ω * Z ω * ξ ω ∂P = 0 := by
    rw [i2.integral_fun_mul_eq_mul_integral hBZ.aestronglyMeasurable hξ1.aestronglyMeasurable, hξm, mul_zero]
  have e3 : ∫ ω, Z ω ^ 2 * ξ ω ^ 2 ∂P = h * ∫ ω, Z ω ^ 2 ∂P := by
    rw [i3.integral_fun_mul_eq_mul_integral hZs.aestronglyMeasurable hξs.aestronglyMeasurable, hξv, mul_comm]
  refine ⟨hB2.add hZξ2, ?_, ?_⟩
  · rw [integral_add hB1 hZξ1, e1, add_zero]
  · have e4 : ∀ ω, (B ω + Z ω * ξ ω) ^ 2 = B ω ^ 2 + (2 * (B ω * Z ω * ξ ω) + Z ω ^ 2 * ξ ω ^ 2) := by intro ω; ring
    have h5 : Integrable (fun ω => 2 * (B ω * Z ω * ξ ω) + Z ω ^ 2 * ξ ω ^ 2) P := (hBZξ.const_mul 2).add hZξs
    simp only [e4]
    rw [integral_add hBs h5, integral_add (hBZξ.const_mul 2) hZξs, integral_const_mul, e2, e3,
      mul_zero, zero_add]

/-- Moments of `B + Z ΔW` when `B` and `Z` are known before the step. -/
theorem step_moments (hW : BrownianSteps P W τ) {k : ℕ} {B Z : Ω → ℝ} (hB : Measurable[pastOf W τ k] B)
    (hZ : Measurable[pastOf W τ k] Z) (hB2 : MemLp B 2 P) (hZ2 : MemLp Z 2 P) (i : ι) :
    MemLp (fun ω => B ω + Z ω * (W ω (τ (k + 1)) i - W ω (τ k) i)) 2 P ∧
    ∫ ω, (B ω + Z ω * (W ω (τ (k + 1)) i - W ω (τ k) i)) ∂P = ∫ ω, B ω ∂P ∧
    ∫ ω, (B ω + Z ω * (W ω (τ (k + 1)) i - W ω (τ k) i)) ^ 2 ∂P =
      ∫ ω, B ω ^ 2 ∂P + (τ (k + 1) - τ k) * ∫ ω, Z ω ^ 2 ∂P :=
  indep_moments (hW.memLp k i) (hW.mean k i) (hW.var k i) hB2 hZ2 (past_indep hW hZ i) (past_indep hW (hB.mul hZ) i)

/-- Coefficients preserve square integrability. -/
theorem SdeCoefficient.memLp (hf : SdeCoefficient f) (t : ℝ) {X : Ω → ι → ℝ} (hX : Measurable X)
    (h2 : ∀ i, MemLp (fun ω => X ω i) 2 P) (i : ι) : MemLp (fun ω => f t (X ω) i) 2 P := by
  obtain ⟨c, hc, hb⟩ := hf.growth t
  have h3 : MemLp (fun ω => c * (1 + ∑ j, |X ω j|)) 2 P := by
    have h4 : MemLp (fun ω => ∑ j, |X ω j|) 2 P :=
      memLp_finsetSum (f := fun j ω => |X ω j|) Finset.univ fun j _ => (h2 j).abs
    have h5 : MemLp (fun ω => 1 + ∑ j, |X ω j|) 2 P := (memLp_const (1 : ℝ)).add h4
    exact h5.const_mul c
  refine h3.mono ?_ (Filter.Eventually.of_forall fun ω => ?_)
  · exact ((measurable_pi_apply i).comp ((hf.meas t).comp hX)).aestronglyMeasurable
  · rw [Real.norm_eq_abs, Real.norm_eq_abs]
    exact (hb (X ω) i).trans (le_abs_self _)

theorem emState_memLp (hW : BrownianSteps P W τ) (hf : SdeCoefficient f) (hg : SdeCoefficient g) (k : ℕ) (i : ι) :
    MemLp (fun ω => emState f g W τ x0 ω k i) 2 P := by
  induction k generalizing i with
  | zero => exact memLp_const (x0 i)
  | succ k ih =>
    have hm := emState_past (W := W) (τ := τ) (x0 := x0) hf hg k
    have hm' := hm.mono (pastOf_le hW k) le_rfl
    have := (step_moments hW (k := k)
      (B := fun ω => emState f g W τ x0 ω k i + (τ (k + 1) - τ k) * f (τ k) (emState f g W τ x0 ω k) i)
      (Z := fun ω => g (τ k) (emState f g W τ x0 ω k) i)
      (((measurable_pi_apply i).comp hm).add (((measurable_pi_apply i).comp ((hf.meas _).comp hm)).const_mul _))
      ((measurable_pi_apply i).comp ((hg.meas _).comp hm))
      ((ih i).add ((hf.memLp (τ k) hm' ih i).const_mul _)) (hg.memLp (τ k) hm' ih i) i).1
    exact this

/-- One step of the first moments. -/
theorem emState_mean_succ (hW : BrownianSteps P W τ) (hf : SdeCoefficient f) (hg : SdeCoefficient g) (k : ℕ) (i : ι) :
    ∫ ω, emState f g W τ x0 ω (k + 1) i ∂P = ∫ ω, emState f g W τ x0 ω k i ∂P +
      (τ (k + 1) - τ k) * ∫ ω, f (τ k) (emState f g W τ x0 ω k) i ∂P := by
  have hm := emState_past (W := W) (τ := τ) (x0 := x0) hf hg k
  have hm' := hm.mono (pastOf_le hW k) le_rfl
  have h2 := emState_memLp (x0 := x0) hW hf hg k
  have := (step_moments hW (k := k)
    (B := fun ω => emState f g W τ x0 ω k i + (τ (k + 1) - τ k) * f (τ k) (emState f g W τ x0 ω k) i)
    (Z := fun ω => g (τ k) (emState f g W τ x0 ω k) i)
    (((measurable_pi_apply i).comp hm).add (((measurable_pi_apply i).comp ((hf.meas _).comp hm)).const_mul _))
    ((measurable_pi_apply i).comp ((hg.meas _).comp hm))
    ((h2 i).add ((hf.memLp (τ k) hm' h2 i).const_mul _)) (hg.memLp (τ k) hm' h2 i) i).2.1
  rw [integral_add ((h2 i).integrable one_le_two) (((hf.memLp (τ k) hm' h2 i).const_mul _).integrable one_le_two),
    integral_const_mul] at this
  exact this

/-- Affine drifts are coefficients. -/
theorem affine_coefficient (A : ℝ → (ι → ℝ) →ₗ[ℝ] (ι → ℝ)) (c : ℝ → ι → ℝ) : SdeCoefficient fun t x => A t x + c t where
  meas t := by
    have : Continuous (A t) := LinearMap.continuous_of_finiteDimensional _
    fun_prop
  growth t := by
    obtain ⟨M, hM, hb⟩ : ∃ M, 0 ≤ M ∧ ∀ x, ‖A t x‖ ≤ M * ‖x‖ :=
      ⟨‖LinearMap.toContinuousLinearMap (A t)‖, norm_nonneg _, fun x => (LinearMap.toContinuousLinearMap (A t)).le_opNorm x⟩
    refine ⟨M + ‖c t‖, by positivity, fun x i => ?_⟩
    have h1 : ‖x‖ ≤ ∑ j, |x j| := by
      refine (pi_norm_le_iff_of_nonneg (Finset.sum_nonneg fun j _ => abs_nonneg _)).2 fun j => ?_
      exact Finset.single_le_sum (f := fun j => |x j|) (fun j _ => abs_nonneg _) (Finset.mem_univ j)
    have h2 : |(A t x + c t) i| ≤ ‖A t x‖ + ‖c t‖ := by
      refine (norm_le_pi_norm (A t x + c t) i).trans (norm_add_le _ _)
    have h3 := hb x
    have h4 := mul_le_mul_of_nonneg_left h1 hM
    have h5 : 0 ≤ ‖c t‖ * ∑ j, |x j| := mul_nonneg (norm_nonneg _) (Finset.sum_nonneg fun j _ => abs_nonneg _)
    calc |(A t x + c t) i| ≤ M * ∑ j, |x j| + ‖c t‖ := by linarith
      _ ≤ M * ∑ j, |x j| + ‖c t‖ + (M + ‖c t‖ * ∑ j, |x j|) := by linarith
      _ = _ := by ring

theorem zero_coefficient : SdeCoefficient fun (_ : ℝ) (_ : ι → ℝ) => (0 : ι → ℝ) where
  meas _ := measurable_const
  growth _ := ⟨0, le_rfl, fun _ _ => by simp⟩

/-- **C114.** For an affine drift and any diffusion of linear growth, the mean over the noise of the states returned by
`sdeint(..., solver='euler')` is what `sdeint` returns without noise, at every time point. -/
theorem C114_mean (sqrt : ℝ → ℝ) (hW : BrownianSteps P W τ) (hτ : StrictMono τ) (A : ℝ → (ι → ℝ) →ₗ[ℝ] (ι → ℝ)) (c : ℝ → ι → ℝ)
    (hg : SdeCoefficient g) (x0 : ι → ℝ) {noise : String} (hn : noise ∈ ["general", "diagonal", "scalar", "additive"])
    (n : ℕ) (hn1 : 1 ≤ n) :
    ∃ (sol : Ω → List (ι → ℝ)) (mean : List (ι → ℝ)),
      (∀ ω, sdeint (m := Except PyErr) sqrt (.sdeFunc (pureSde (fun t x => A t x + c t) g (some noise) (some "ito"))) x0
        (gridOf τ n) (.inl "euler") (pathBm (W ω)) [] = .ok (gridOf τ n, sol ω)) ∧
      (∀ ω, sdeint (m := Except PyErr) sqrt (.sdeFunc (pureSde (fun t x => A t x + c t) (fun _ _ => 0) (some noise)
        (some "ito"))) x0 (gridOf τ n) (.inl "euler") (pathBm (W ω)) [] = .ok (gridOf τ n, mean)) ∧
      mean.length = n + 1 ∧ (∀ ω, (sol ω).length = n + 1) ∧
      ∀ k ≤ n, ∀ i, ∫ ω, (sol ω).getD k 0 i ∂P = mean.getD k 0 i := by
  classical
  have hA := affine_coefficient A c
  -- the noiseless states
  let e : ℕ → ι → ℝ := Nat.rec x0 fun k x => x + (τ (k + 1) - τ k) • (A (τ k) x + c (τ k))
  have he : ∀ ω k, emState (fun t x => A t x + c t) (fun _ _ => 0) W τ x0 ω k = e k := by
    intro ω k
    induction k with
    | zero => rfl
    | succ k ih =>
      simp only [emState, ih, zero_mul, add_zero]
      rfl
  have hmean : ∀ k i, ∫ ω, emState (fun t x => A t x + c t) g W τ x0 ω k i ∂P = e k i := by
    intro k
    induction k with
    | zero => intro i; simp [emState, e]
    | succ k ih =>
      intro i
      have h2 := emState_memLp (x0 := x0) hW hA hg k
      have hlin : ∀ x : ι → ℝ, (A (τ k) x + c (τ k)) i =
          (∑ j, x j * A (τ k) (fun l => if j = l then 1 else 0) i) + c (τ k) i := by
        intro x
        rw [Pi.add_apply]
        congr 1
        conv_lhs => rw [LinearMap.pi_apply_eq_sum_univ (A (τ k)) x]
        simp
      rw [emState_mean_succ hW hA hg k i, ih i]
      have h3 : ∫ ω, (A (τ k) (emState (fun t x => A t x + c t) g W τ x0 ω k) + c (τ k)) i ∂P = (A (τ k) (e k) + c (τ k)) i := by
        simp only [hlin]
        have hint : ∀ j ∈ Finset.univ, Integrable (fun ω => emState (fun t x => A t x + c t) g W τ x0 ω k j *
            A (τ k) (fun l => if j = l then 1 else 0) i) P := fun j _ => ((h2 j).integrable one_le_two).mul_const _
        rw [integral_add (integrable_finsetSum _ hint) (integrable_const _), integral_finsetSum _ hint]
        simp only [integral_mul_const, ih, integral_const, probReal_univ, one_smul]
      rw [h3]
      rfl
  refine ⟨fun ω => (List.range (n + 1)).map (emState (fun t x => A t x + c t) g W τ x0 ω), (List.range (n + 1)).map e,
    fun ω => sdeint_emState sqrt _ g W hτ x0 hn n hn1 ω, fun ω => ?_, by simp, fun ω => by simp, fun k hk i => ?_⟩
  · rw [sdeint_emState sqrt _ _ W hτ x0 hn n hn1 ω]
    congr 3
    funext k
    exact he ω k
  · have hk' : k < n + 1 := by omega
    simp only [List.getD_eq_getElem?_getD, List.getElem?_map, List.getElem?_range hk', Option.map_some, Option.getD_some]
    exact hmean k i

/-- The second moments of one step. -/
theorem emState_sq_succ (hW : BrownianSteps P W τ) (hf : SdeCoefficient f) (hg : SdeCoefficient g) (k : ℕ) (i : ι) :
    ∫ ω, emState f g W τ x0 ω (k + 1) i ^ 2 ∂P =
      ∫ ω, (emState f g W τ x0 ω k i + (τ (k + 1) - τ k) * f (τ k) (emState f g W τ x0 ω k) i) ^ 2 ∂P +
      (τ (k + 1) - τ k) * ∫ ω, g (τ k) (emState f g W τ x0 ω k) i ^ 2 ∂P := by
  have hm := emState_past (W := W) (τ := τ) (x0 := x0) hf hg k
  have hm' := hm.mono (pastOf_le hW k) le_rfl
  have h2 := emState_memLp (x0 := x0) hW hf hg k
  exact (step_moments hW (k := k)
    (B := fun ω => emState f g W τ x0 ω k i + (τ (k + 1) - τ k) * f (τ k) (emState f g W τ x0 ω k) i)
    (Z := fun ω => g (τ k) (emState f g W τ x0 ω k) i)
    (((measurable_pi_apply i).comp hm).add (((measurable_pi_apply i).comp ((hf.meas _).comp hm)).const_mul _))
    ((measurable_pi_apply i).comp ((hg.meas _).comp hm))
    ((h2 i).add ((hf.memLp (τ k) hm' h2 i).const_mul _)) (hg.memLp (τ k) hm' h2 i) i).2.2

/-- **C114.** Geometric Brownian motion, componentwise `dX_i = a_i X_i dt + b_i X_i dW_i`: the second moments of the states
returned by `sdeint(..., solver='euler')` are exactly `∏ ((1 + a_i h)² + b_i² h) x0_i²`. -/
theorem C114_second_moment (sqrt : ℝ → ℝ) (hW : BrownianSteps P W τ) (hτ : StrictMono τ) (a b x0 : ι → ℝ) {noise : String}
    (hn : noise ∈ ["general", "diagonal", "scalar", "additive"]) (n : ℕ) (hn1 : 1 ≤ n) :
    ∃ sol : Ω → List (ι → ℝ),
      (∀ ω, sdeint (m := Except PyErr) sqrt (.sdeFunc (pureSde (fun _ x => a * x) (fun _ x => b * x) (some noise) (some "ito")))
        x0 (gridOf τ n) (.inl "euler") (pathBm (W ω)) [] = .ok (gridOf τ n, sol ω)) ∧
      ∀ k ≤ n, ∀ i, ∫ ω, (sol ω).getD k 0 i ^ 2 ∂P =
        (∏ j ∈ Finset.range k, ((1 + a i * (τ (j + 1) - τ j)) ^ 2 + b i ^ 2 * (τ (j + 1) - τ j))) * x0 i ^ 2 := by
  have hc : ∀ a : ι → ℝ, SdeCoefficient fun (_ : ℝ) (x : ι → ℝ) => a * x := by
    intro a
    have := affine_coefficient (ι := ι) (fun _ => LinearMap.mulLeft ℝ a) (fun _ => 0)
    simpa using this
  have hsq : ∀ k i, ∫ ω, emState (fun _ x => a * x) (fun _ x => b * x) W τ x0 ω k i ^ 2 ∂P =
      (∏ j ∈ Finset.range k, ((1 + a i * (τ (j + 1) - τ j)) ^ 2 + b i ^ 2 * (τ (j + 1) - τ j))) * x0 i ^ 2 := by
    intro k i
    induction k with
    | zero => simp [emState]
    | succ k ih =>
      rw [emState_sq_succ hW (hc a) (hc b), Finset.prod_range_succ]
      have e1 : ∀ z : ℝ, (z + (τ (k + 1) - τ k) * (a i * z)) ^ 2 = (1 + a i * (τ (k + 1) - τ k)) ^ 2 * z ^ 2 := by
        intro z; ring
      have e2 : ∀ z : ℝ, (b i * z) ^ 2 = b i ^ 2 * z ^ 2 := by intro z; ring
      simp only [Pi.mul_apply, e1, e2, integral_const_mul, ih]
      ring
  refine ⟨fun ω => (List.range (n + 1)).map (emState (fun _ x => a * x) (fun _ x => b * x) W τ x0 ω),
    fun ω => sdeint_emState sqrt _ _ W hτ x0 hn n hn1 ω, fun k hk i => ?_⟩
  have hk' : k < n + 1 := by omega
  simp only [List.getD_eq_getElem?_getD, List.getElem?_map, List.getElem?_range hk', Option.map_some, Option.getD_some]
  exact hsq k i

/-- One step of two runs driven by the same path. -/
theorem coupled_step (hW : BrownianSteps P W τ) (hτ : StrictMono τ) (hf : SdeCoefficient f) (hg : SdeCoefficient g) {μ L M : ℝ}
    (hμ : ∀ t x y, ∑ i, (x i - y i) * (f t x i - f t y i) ≤ μ * ∑ i, (x i - y i) ^ 2)
    (hL : ∀ t x y, ∑ i, (f t x i - f t y i) ^ 2 ≤ L ^ 2 * ∑ i, (x i - y i) ^ 2)
    (hM : ∀ t x y, ∑ i, (g t x i - g t y i) ^ 2 ≤ M ^ 2 * ∑ i, (x i - y i) ^ 2) (y0 : ι → ℝ) (k : ℕ) :
    ∑ i, ∫ ω, (emState f g W τ x0 ω (k + 1) i - emState f g W τ y0 ω (k + 1) i) ^ 2 ∂P ≤
      (1 + (τ (k + 1) - τ k) * (2 * μ + M ^ 2) + (τ (k + 1) - τ k) ^ 2 * L ^ 2) *
        ∑ i, ∫ ω, (emState f g W τ x0 ω k i - emState f g W τ y0 ω k i) ^ 2 ∂P := by
  have hmx := emState_past (W := W) (τ := τ) (x0 := x0) hf hg k
  have hmy := emState_past (W := W) (τ := τ) (x0 := y0) hf hg k
  have hmx' := hmx.mono (pastOf_le hW k) le_rfl
  have hmy' := hmy.mono (pastOf_le hW k) le_rfl
  have hx2 := emState_memLp (x0 := x0) hW hf hg k
  have hy2 := emState_memLp (x0 := y0) hW hf hg k
  have hh : 0 ≤ τ (k + 1) - τ k := sub_nonneg.2 (hτ (Nat.lt_succ_self k)).le
  have hd2 : ∀ i, MemLp (fun ω => emState f g W τ x0 ω k i - emState f g W τ y0 ω k i) 2 P := fun i => (hx2 i).sub (hy2 i)
  have hfd2 : ∀ i, MemLp (fun ω => f (τ k) (emState f g W τ x0 ω k) i - f (τ k) (emState f g W τ y0 ω k) i) 2 P :=
    fun i => (hf.memLp (τ k) hmx' hx2 i).sub (hf.memLp (τ k) hmy' hy2 i)
  have hgd2 : ∀ i, MemLp (fun ω => g (τ k) (emState f g W τ x0 ω k) i - g (τ k) (emState f g W τ y0 ω k) i) 2 P :=
    fun i => (hg.memLp (τ k) hmx' hx2 i).sub (hg.memLp (τ k) hmy' hy2 i)
  have key : ∀ i, ∫ ω, (emState f g W τ x0 ω (k + 1) i - emState f g W τ y0 ω (k + 1) i) ^ 2 ∂P =
      ∫ ω, ((emState f g W τ x0 ω k i - emState f g W τ y0 ω k i) + (τ (k + 1) - τ k) *
        (f (τ k) (emState f g W τ x0 ω k) i - f (τ k) (emState f g W τ y0 ω k) i)) ^ 2 ∂P + (τ (k + 1) - τ k) *
      ∫ ω, (g (τ k) (emState f g W τ x0 ω k) i - g (τ k) (emState f g W τ y0 ω k) i) ^ 2 ∂P := by
    intro i
    have := (step_moments hW (k := k)
      (B := fun ω => (emState f g W τ x0 ω k i - emState f g W τ y0 ω k i) + (τ (k + 1) - τ k) *
        (f (τ k) (emState f g W τ x0 ω k) i - f (τ k) (emState f g W τ y0 ω k) i))
      (Z := fun ω => g (τ k) (emState f g W τ x0 ω k) i - g (τ k) (emState f g W τ y0 ω k) i)
      ((((measurable_pi_apply i).comp hmx).sub ((measurable_pi_apply i).comp hmy)).add
        ((((measurable_pi_apply i).comp ((hf.meas _).comp hmx)).sub
          ((measurable_pi_apply i).comp ((hf.meas _).comp hmy))).const_mul _))
      (((measurable_pi_apply i).comp ((hg.meas _).comp hmx)).sub ((measurable_pi_apply i).comp ((hg.meas _).comp hmy)))
      ((hd2 i).add ((hfd2 i).const_mul _)) (hgd2 i) i).2.2
    rw [← this]
    refine integral_congr_ae (Filter.Eventually.of_forall fun ω => ?_)
    simp only [emState, Pi.add_apply, Pi.smul_apply, Pi.mul_apply, Pi.sub_apply, smul_eq_mul]
    ring
  simp only [key]
  generalize hhv : τ (k + 1) - τ k = h at *
  rw [Finset.sum_add_distrib, ← Finset.mul_sum]
  have s1 : ∀ F : ι → Ω → ℝ, (∀ i, Integrable (F i) P) → ∑ i, ∫ ω, F i ω ∂P = ∫ ω, ∑ i, F i ω ∂P :=
    fun F hF => (integral_finsetSum _ fun i _ => hF i).symm
  have hBint : ∀ i, Integrable (fun ω => ((emState f g W τ x0 ω k i - emState f g W τ y0 ω k i) + h *
        (f (τ k) (emState f g W τ x0 ω k) i - f (τ k) (emState f g W τ y0 ω k) i)) ^ 2) P :=
    fun i => ((hd2 i).add ((hfd2 i).const_mul h)).integrable_sq
  have hdint : ∀ i, Integrable (fun ω => (emState f g W τ x0 ω k i - emState f g W τ y0 ω k i) ^ 2) P :=
    fun i => (hd2 i).integrable_sq
  have hgint : ∀ i, Integrable (fun ω =>
      (g (τ k) (emState f g W τ x0 ω k) i - g (τ k) (emState f g W τ y0 ω k) i) ^ 2) P := fun i => (hgd2 i).integrable_sq
  rw [s1 _ hBint, s1 _ hgint, s1 _ hdint]
  have b1 : ∫ ω, ∑ i, ((emState f g W τ x0 ω k i - emState f g W τ y0 ω k i) + h *
        (f (τ k) (emState f g W τ x0 ω k) i - f (τ k) (emState f g W τ y0 ω k) i)) ^ 2 ∂P ≤
      (1 + h * (2 * μ) + h ^ 2 * L ^ 2) * ∫ ω, ∑ i, (emState f g W τ x0 ω k i - emState f g W τ y0 ω k i) ^ 2 ∂P := by
    rw [← integral_const_mul]
    refine integral_mono (integrable_finsetSum _ fun i _ => hBint i)
      ((integrable_finsetSum _ fun i _ => hdint i).const_mul _) fun ω => ?_
    have h1 := hμ (τ k) (emState f g W τ x0 ω k) (emState f g W τ y0 ω k)
    have h2 := hL (τ k) (emState f g W τ x0 ω k) (emState f g W τ y0 ω k)
    simp only
    generalize emState f g W τ x0 ω k = x at h1 h2 ⊢
    generalize emState f g W τ y0 ω k = y at h1 h2 ⊢
    have e : ∀ i, ((x i - y i) + h * (f (τ k) x i - f (τ k) y i)) ^ 2 = (x i - y i) ^ 2 +
        2 * h * ((x i - y i) * (f (τ k) x i - f (τ k) y i)) + h ^ 2 * (f (τ k) x i - f (τ k) y i) ^ 2 := by intro i; ring
    simp only [e, Finset.sum_add_distrib, ← Finset.mul_sum]
    have h3 := mul_le_mul_of_nonneg_left h1 (by linarith : 0 ≤ 2 * h)
    have h4 := mul_le_mul_of_nonneg_left h2 (sq_nonneg h)
    linarith
  have b2 : ∫ ω, ∑ i, (g (τ k) (emState f g W τ x0 ω k) i - g (τ k) (emState f g W τ y0 ω k) i) ^ 2 ∂P ≤
      M ^ 2 * ∫ ω, ∑ i, (emState f g W τ x0 ω k i - emState f g W τ y0 ω k i) ^ 2 ∂P := by
    rw [← integral_const_mul]
    exact integral_mono (integrable_finsetSum _ fun i _ => hgint i)
      ((integrable_finsetSum _ fun i _ => hdint i).const_mul _) fun ω => hM _ _ _
  have b3 := mul_le_mul_of_nonneg_left b2 hh
  linarith

/-- **C114.** Mean-square stability: for a drift with one-sided constant `μ` and Lipschitz constant `L` and a diffusion with
Lipschitz constant `M`, two runs of `sdeint(..., solver='euler')` driven by the same noise from `x0` and `y0` are at step `k`
within `∏ (1 + h (2μ + M²) + h² L²) |x0 - y0|²` of each other in mean square. With `2μ + M² + h L² < 0` they approach each
other. -/
theorem C114_stability (sqrt : ℝ → ℝ) (hW : BrownianSteps P W τ) (hτ : StrictMono τ) (hf : SdeCoefficient f)
    (hg : SdeCoefficient g) {μ L M : ℝ}
    (hμ : ∀ t x y, ∑ i, (x i - y i) * (f t x i - f t y i) ≤ μ * ∑ i, (x i - y i) ^ 2)
    (hL : ∀ t x y, ∑ i, (f t x i - f t y i) ^ 2 ≤ L ^ 2 * ∑ i, (x i - y i) ^ 2)
    (hM : ∀ t x y, ∑ i, (g t x i - g t y i) ^ 2 ≤ M ^ 2 * ∑ i, (x i - y i) ^ 2)
    (hpos : ∀ k, 0 ≤ 1 + (τ (k + 1) - τ k) * (2 * μ + M ^ 2) + (τ (k + 1) - τ k) ^ 2 * L ^ 2) (x0 y0 : ι → ℝ) {noise : String}
    (hn : noise ∈ ["general", "diagonal", "scalar", "additive"]) (n : ℕ) (hn1 : 1 ≤ n) :
    ∃ solX solY : Ω → List (ι → ℝ),
      (∀ ω, sdeint (m := Except PyErr) sqrt (.sdeFunc (pureSde f g (some noise) (some "ito"))) x0 (gridOf τ n) (.inl "euler")
        (pathBm (W ω)) [] = .ok (gridOf τ n, solX ω)) ∧
      (∀ ω, sdeint (m := Except PyErr) sqrt (.sdeFunc (pureSde f g (some noise) (some "ito"))) y0 (gridOf τ n) (.inl "euler")
        (pathBm (W ω)) [] = .ok (gridOf τ n, solY ω)) ∧
      ∀ k ≤ n, ∑ i, ∫ ω, ((solX ω).getD k 0 i - (solY ω).getD k 0 i) ^ 2 ∂P ≤
        (∏ j ∈ Finset.range k, (1 + (τ (j + 1) - τ j) * (2 * μ + M ^ 2) + (τ (j + 1) - τ j) ^ 2 * L ^ 2)) *
          ∑ i, (x0 i - y0 i) ^ 2 := by
  have hsq : ∀ k, ∑ i, ∫ ω, (emState f g W τ x0 ω k i - emState f g W τ y0 ω k i) ^ 2 ∂P ≤
      (∏ j ∈ Finset.range k, (1 + (τ (j + 1) - τ j) * (2 * μ + M ^ 2) + (τ (j + 1) - τ j) ^ 2 * L ^ 2)) *
          ∑ i, (x0 i - y0 i) ^ 2 := by
    intro k
    induction k with
    | zero => simp [emState]
    | succ k ih =>
      refine (coupled_step hW hτ hf hg hμ hL hM y0 k).trans ?_
      refine (mul_le_mul_of_nonneg_left ih (hpos k)).trans (le_of_eq ?_)
      rw [Finset.prod_range_succ]
      ring
  refine ⟨fun ω => (List.range (n + 1)).map (emState f g W τ x0 ω), fun ω => (List.range (n + 1)).map (emState f g W τ y0 ω),
    fun ω => sdeint_emState sqrt _ _ W hτ x0 hn n hn1 ω, fun ω => sdeint_emState sqrt _ _ W hτ y0 hn n hn1 ω, fun k hk => ?_⟩
  have hk' : k < n + 1 := by omega
  simp only [List.getD_eq_getElem?_getD, List.getElem?_map, List.getElem?_range hk', Option.map_some, Option.getD_some]
  exact hsq k

end moments

/-! ### Means of the four schemes on linear SDEs -/

section schemes

variable {P : Measure Ω} [IsProbabilityMeasure P] {W : Ω → ℝ → ι → ℝ} {τ : ℕ → ℝ}

/-- The factor by which one step of length `h` multiplies the mean of a component of `dX = a X dt + b X dW`, for each solver
name. For the Ito schemes it is the one of the drift alone, for the Stratonovich schemes the drift is `a + b²/2`; the
derivative-free `milstein_stratonovich` of the code adds `a b h^(3/2) / 2`. -/
noncomputable def meanFactor (name : String) (a b h : ℝ) : ℝ :=
  if name = "eulerHeun" then 1 + (a + b ^ 2 / 2) * h
  else if name = "milstein_stratonovich" then 1 + (a + b ^ 2 / 2) * h + a * b * h * √h / 2
  else 1 + a * h

/-- A recursion `s (k+1) = s k (p + q ΔW + r ΔW²)`, componentwise. -/
noncomputable def quadState (W : Ω → ℝ → ι → ℝ) (τ : ℕ → ℝ) (p q r : ℕ → ι → ℝ) (x0 : ι → ℝ) (ω : Ω) : ℕ → ι → ℝ
  | 0 => x0
  | k + 1 => quadState W τ p q r x0 ω k * (p k + q k * (W ω (τ (k + 1)) - W ω (τ k)) +
      r k * (W ω (τ (k + 1)) - W ω (τ k)) ^ 2)

theorem quadState_mean (hW : BrownianSteps P W τ) (p q r : ℕ → ι → ℝ) (x0 : ι → ℝ) (k : ℕ) :
    (Measurable[pastOf W τ k] fun ω => quadState W τ p q r x0 ω k) ∧
    ∀ i, Integrable (fun ω => quadState W τ p q r x0 ω k i) P ∧ ∫ ω, quadState W τ p q r x0 ω k i ∂P =
      (∏ j ∈ Finset.range k, (p j i + r j i * (τ (j + 1) - τ j))) * x0 i := by
  induction k with
  | zero =>
    refine ⟨?_, fun i => ⟨integrable_const _, by simp [quadState]⟩⟩
    show Measurable[pastOf W τ 0] fun _ => x0
    exact measurable_const
  | succ k ih =>
    obtain ⟨hm, hi⟩ := ih
    have hinc := increment_past (W := W) (τ := τ) k
    refine ⟨?_, fun i => ?_⟩
    · have h1 : Measurable[pastOf W τ (k + 1)] fun ω => quadState W τ p q r x0 ω k := hm.mono (pastOf_mono k) le_rfl
      exact h1.mul (((measurable_const (a := p k)).add (hinc.const_mul (q k))).add ((hinc.pow_const 2).const_mul (r k)))
    · obtain ⟨hint, hmean⟩ := hi i
      have ind := past_indep hW ((measurable_pi_apply i).comp hm) i
      have hξ2 := hW.memLp k i
      have hξm := hW.mean k i
      have hξv := hW.var k i
      obtain ⟨S, hS⟩ : ∃ S : Ω → ℝ, S = fun ω => quadState W τ p q r x0 ω k i := ⟨_, rfl⟩
      obtain ⟨ξ, hξ⟩ : ∃ ξ : Ω → ℝ, ξ = fun ω => W ω (τ (k + 1)) i - W ω (τ k) i := ⟨_, rfl⟩
      have e0 : (fun ω => quadState W τ p q r x0 ω (k + 1) i) =
          fun ω => p k i * S ω + q k i * (S ω * ξ ω) + r k i * (S ω * ξ ω ^ 2) := by
        funext ω
        simp only [quadState, hS, hξ, Pi.mul_apply, Pi.add_apply, Pi.sub_apply, Pi.pow_apply]
        ring
      have ind' : IndepFun S ξ P := by rw [hS, hξ]; exact ind
      have hξ2' : MemLp ξ 2 P := by rw [hξ]; exact hξ2
      have hS1 : Integrable S P := by rw [hS]; exact hint
      have ind2 : IndepFun S (fun ω => ξ ω ^ 2) P := ind'.comp (φ := id) (ψ := fun a : ℝ => a ^ 2) measurable_id (by fun_prop)
      have hξ1 := hξ2'.integrable one_le_two
      have hξs := hξ2'.integrable_sq
      have i1 : Integrable (fun ω => S ω * ξ ω) P := ind'.integrable_mul hS1 hξ1
      have i2 : Integrable (fun ω => S ω * ξ ω ^ 2) P := ind2.integrable_mul hS1 hξs
      have i12 : Integrable (fun ω => p k i * S ω + q k i * (S ω * ξ ω)) P := (hS1.const_mul _).add (i1.const_mul _)
      have e1 : ∫ ω, S ω * ξ ω ∂P = 0 := by
        rw [ind'.integral_fun_mul_eq_mul_integral hS1.aestronglyMeasurable hξ1.aestronglyMeasurable]
        rw [show ∫ ω, ξ ω ∂P = 0 by rw [hξ]; exact hξm, mul_zero]
      have e2 : ∫ ω, S ω * ξ ω ^ 2 ∂P = (∫ ω, S ω ∂P) * (τ (k + 1) - τ k) := by
        rw [ind2.integral_fun_mul_eq_mul_integral hS1.aestronglyMeasurable hξs.aestronglyMeasurable]
        rw [show ∫ ω, ξ ω ^ 2 ∂P = τ (k + 1) - τ k by rw [hξ]; exact hξv]
      have e3 : ∫ ω, S ω ∂P = (∏ j ∈ Finset.range k, (p j i + r j i * (τ (j + 1) - τ j))) * x0 i := by rw [hS]; exact hmean
      rw [e0]
      refine ⟨i12.add (i2.const_mul _), ?_⟩
      rw [integral_add i12 (i2.const_mul _), integral_add (hS1.const_mul _) (i1.const_mul _), integral_const_mul,
        integral_const_mul, integral_const_mul, e1, e2, e3, Finset.prod_range_succ]
      ring

/-- The constant part of the factor by which one step of length `h` multiplies the state of `dX = a X dt + b X dW`. -/
noncomputable def linP (name : String) (a b : ι → ℝ) (h : ℝ) : ι → ℝ :=
  if name = "milstein_ito" then 1 + h • a - (1 / 2 : ℝ) • (h • b ^ 2) - (√h / 2) • (h • (b * a)) else 1 + h • a

/-- The part of that factor that multiplies the squared increment. -/
noncomputable def linR (name : String) (a b : ι → ℝ) (h : ℝ) : ι → ℝ :=
  if name = "euler" then 0 else if name = "eulerHeun" then (1 / 2 : ℝ) • b ^ 2 else (1 / 2 : ℝ) • b ^ 2 + (√h / 2) • (b * a)

/-- On `dX_i = a_i X_i dt + b_i X_i dW_i` every solver multiplies the state by `p + b ΔW + r ΔW²`. -/
theorem sdeint_linear (W : Ω → ℝ → ι → ℝ) {τ : ℕ → ℝ} (hτ : StrictMono τ) (a b x0 : ι → ℝ) {name : String}
    {noise type : Option String} (hacc : Accepts name noise type) (n : ℕ) (hn1 : 1 ≤ n) (ω : Ω) :
    sdeint (m := Except PyErr) Real.sqrt (.sdeFunc (pureSde (fun _ x => a * x) (fun _ x => b * x) noise type)) x0
      (gridOf τ n) (.inl name) (pathBm (W ω)) [] = .ok (gridOf τ n, (List.range (n + 1)).map
        (quadState W τ (fun k => linP name a b (τ (k + 1) - τ k)) (fun _ => b) (fun k => linR name a b (τ (k + 1) - τ k)) x0 ω)) := by
  have hrun : ∃ step, (∀ x t dt, 0 < dt → step x t dt = .ok (.three none (x * (linP name a b dt + b * (W ω (t + dt) - W ω t) +
        linR name a b dt * (W ω (t + dt) - W ω t) ^ 2)) none)) ∧
      sdeint (m := Except PyErr) Real.sqrt (.sdeFunc (pureSde (fun _ x => a * x) (fun _ x => b * x) noise type)) x0
        (gridOf τ n) (.inl name) (pathBm (W ω)) [] = fixedSdeint torchIsclose step x0 (gridOf τ n) (gridOf τ n) := by
    refine sdeint_name (m := Except PyErr) Real.sqrt (fun _ x => a * x) (fun _ x => b * x) (pathBm (W ω)) hacc x0 (gridOf τ n)
        (fun step => ∀ x t dt, 0 < dt → step x t dt = .ok (.three none _ none)) ?_ ?_ ?_ ?_
    · rintro rfl x t dt _
      simp only [eulerMaruyamaStep, pureSde, pathBm, bind, Except.bind, pure, Except.pure]
      congr 2
      funext i
      simp [linP, linR]
      ring
    · rintro rfl x t dt _
      simp only [eulerHeunStep, pureSde, pathBm, bind, Except.bind, pure, Except.pure]
      congr 2
      funext i
      simp [linP, linR]
      ring
    · rintro rfl x t dt hdt
      have := (C45_linear_partial (K := ℝ) (V := ι → ℝ) Real.sqrt (fun _ x => a * x) (W ω) noise type isSqrt_real b x t dt hdt).1
      have e : milsteinStep (m := Except PyErr) Real.sqrt itoTerm (pureSde (fun _ x => a * x) (fun _ x => b * x) noise type)
          (pathBm (W ω)) x t dt = .ok (.three none (miNew Real.sqrt (fun _ x => a * x) (fun _ x => b * x) (W ω) noise type
            x t dt) none) := rfl
      rw [e, this]
      congr 2
      funext i
      simp [linP, linR]
      ring
    · rintro rfl x t dt hdt
      have := (C45_linear_partial (K := ℝ) (V := ι → ℝ) Real.sqrt (fun _ x => a * x) (W ω) noise type isSqrt_real b x t dt hdt).2
      have e : milsteinStep (m := Except PyErr) Real.sqrt stratonovichTerm
          (pureSde (fun _ x => a * x) (fun _ x => b * x) noise type)
          (pathBm (W ω)) x t dt = .ok (.three none (msNew Real.sqrt (fun _ x => a * x) (fun _ x => b * x) (W ω) noise type
            x t dt) none) := rfl
      rw [e, this]
      congr 2
      funext i
      simp [linP, linR]
      ring
  obtain ⟨step, hs, e⟩ := hrun
  rw [e, run_of_steps step _ hs x0 (gridOf τ n) (by simp [gridOf]; omega) (by
    unfold gridOf
    rw [List.pairwise_map]
    exact List.pairwise_lt_range.imp fun h => hτ h)]
  have := gridStates_range (fun x t dt => x * (linP name a b dt + b * (W ω (t + dt) - W ω t) +
      linR name a b dt * (W ω (t + dt) - W ω t) ^ 2)) τ
    (quadState W τ (fun k => linP name a b (τ (k + 1) - τ k)) (fun _ => b) (fun k => linR name a b (τ (k + 1) - τ k)) x0 ω)
    (fun k => by simp [quadState]) n
  show _ = Except.ok (gridOf τ n, List.map _ _)
  rw [← this]
  rfl

/-- **C114.** For every solver name that `sdeint` accepts, on `dX_i = a_i X_i dt + b_i X_i dW_i` the mean of component `i` of the
`k`-th state is `∏ meanFactor name a_i b_i h` times `x0_i`. -/
theorem C114_schemes (hW : BrownianSteps P W τ) (hτ : StrictMono τ) (a b x0 : ι → ℝ) {name : String}
    {noise type : Option String} (hacc : Accepts name noise type) (n : ℕ) (hn1 : 1 ≤ n) :
    ∃ sol : Ω → List (ι → ℝ),
      (∀ ω, sdeint (m := Except PyErr) Real.sqrt (.sdeFunc (pureSde (fun _ x => a * x) (fun _ x => b * x) noise type)) x0
        (gridOf τ n) (.inl name) (pathBm (W ω)) [] = .ok (gridOf τ n, sol ω)) ∧
      ∀ k ≤ n, ∀ i, ∫ ω, (sol ω).getD k 0 i ∂P =
        (∏ j ∈ Finset.range k, meanFactor name (a i) (b i) (τ (j + 1) - τ j)) * x0 i := by
  refine ⟨_, fun ω => sdeint_linear W hτ a b x0 hacc n hn1 ω, fun k hk i => ?_⟩
  have hk' : k < n + 1 := by omega
  simp only [List.getD_eq_getElem?_getD, List.getElem?_map, List.getElem?_range hk', Option.map_some, Option.getD_some]
  rw [((quadState_mean hW _ _ _ x0 k).2 i).2]
  congr 1
  refine Finset.prod_congr rfl fun j _ => ?_
  cases hacc <;> simp [meanFactor, linP, linR] <;> ring

end schemes

/-! ### The hypotheses are met -/

/-- On every grid there is noise with the required moments: independent Gaussian increments. -/
theorem exists_brownianSteps {τ : ℕ → ℝ} (hτ : StrictMono τ) :
    ∃ (P : Measure (ℕ → ι → ℝ)) (W : (ℕ → ι → ℝ) → ℝ → ι → ℝ), IsProbabilityMeasure P ∧ BrownianSteps P W τ := by
  let v : ℕ → NNReal := fun k => Real.toNNReal (τ (k + 1) - τ k)
  let Q : ℕ → Measure (ι → ℝ) := fun k => Measure.pi fun _ : ι => gaussianReal 0 (v k)
  let W : (ℕ → ι → ℝ) → ℝ → ι → ℝ := fun ω t => ∑ j ∈ Finset.range (Function.invFun τ t), ω j
  have hinv : ∀ k, Function.invFun τ (τ k) = k := Function.leftInverse_invFun hτ.injective
  have hinc : ∀ (k : ℕ) (ω : ℕ → ι → ℝ), W ω (τ (k + 1)) - W ω (τ k) = ω k := by
    intro k ω
    simp only [W, hinv, Finset.sum_range_succ, add_sub_cancel_left]
  have hinci : ∀ (k : ℕ) (i : ι) (ω : ℕ → ι → ℝ), W ω (τ (k + 1)) i - W ω (τ k) i = ω k i := by
    intro k i ω
    rw [← hinc k ω, Pi.sub_apply]
  have hmp : ∀ (k : ℕ) (i : ι), MeasurePreserving (fun ω : ℕ → ι → ℝ => ω k i) (Measure.infinitePi Q) (gaussianReal 0 (v k)) :=
    fun k i => (measurePreserving_eval (fun _ : ι => gaussianReal 0 (v k)) i).comp (measurePreserving_eval_infinitePi Q k)
  refine ⟨Measure.infinitePi Q, W, inferInstance, ⟨?_, ?_, ?_, ?_, ?_⟩⟩
  · intro k
    simp only [hinc]
    exact measurable_pi_apply k
  · simp only [hinc]
    exact iIndepFun_infinitePi (X := fun _ => id) fun _ => measurable_id
  · intro k i
    simp only [hinci]
    exact (memLp_id_gaussianReal 2).comp_measurePreserving (hmp k i)
  · intro k i
    simp only [hinci]
    have := integral_map (μ := Measure.infinitePi Q) (φ := fun ω : ℕ → ι → ℝ => ω k i) (f := fun x : ℝ => x) (hmp k i).measurable.aemeasurable
      measurable_id.aestronglyMeasurable
    rw [← this, (hmp k i).map_eq, integral_id_gaussianReal]
  · intro k i
    simp only [hinci]
    have := integral_map (μ := Measure.infinitePi Q) (φ := fun ω : ℕ → ι → ℝ => ω k i) (f := fun x : ℝ => x ^ 2) (hmp k i).measurable.aemeasurable
      (measurable_id.pow_const 2).aestronglyMeasurable
    rw [← this, (hmp k i).map_eq]
    have hvar := variance_id_gaussianReal (μ := 0) (v := v k)
    rw [variance_of_integral_eq_zero measurable_id.aemeasurable (by simp)]
      at hvar
    have h0 : 0 ≤ τ (k + 1) - τ k := sub_nonneg.2 (hτ (Nat.lt_succ_self k)).le
    simp only [id] at hvar
    rw [hvar, Real.coe_toNNReal _ h0]

/-- The hypotheses of `C114_stability` are met by the mean-reverting SDE `dX = -2 X dt + X dW` on the grid of spacing `1/4`:
each step multiplies the mean-square distance by at most `1 + (1/4)(-4 + 1) + (1/16) 4 = 1/2`. -/
example : (∀ (_ : ℝ) (x y : Fin 1 → ℝ), ∑ i, (x i - y i) * ((-2 * x) i - (-2 * y) i) ≤ -2 * ∑ i, (x i - y i) ^ 2) ∧
    (∀ (_ : ℝ) (x y : Fin 1 → ℝ), ∑ i, ((-2 * x) i - (-2 * y) i) ^ 2 ≤ 2 ^ 2 * ∑ i, (x i - y i) ^ 2) ∧
    (1 + (1 / 4 : ℝ) * (2 * (-2) + 1 ^ 2) + (1 / 4) ^ 2 * 2 ^ 2 = 1 / 2) := by
  refine ⟨fun _ x y => le_of_eq ?_, fun _ x y => le_of_eq ?_, by norm_num⟩
  · simp
    ring
  · simp
    ring

end Torchdyn
