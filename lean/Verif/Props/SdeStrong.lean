import Verif.Props.SdeMoments
import Mathlib.Analysis.Complex.ExponentialBounds
import Mathlib.Probability.BrownianMotion.Basic

/-!
C116: strong convergence of the Euler–Maruyama solver of `sdeint` (`/repo/torchdyn/numerics/solvers/sde.py:30-35`,
`/repo/torchdyn/numerics/sdeint.py:91-116`): on nested grids and the same Brownian path, the mean-square difference of the results is
at most a constant times the mesh of the coarser grid.
-/

set_option linter.unusedSectionVars false

namespace Torchdyn

open Spec MeasureTheory ProbabilityTheory

variable {Ω : Type} [MeasurableSpace Ω] {ι : Type} [Fintype ι]

/-- The usual conditions on the coefficients of an SDE: Lipschitz in the state, Hölder of exponent `1/2` in time, linear growth.
`L` is the square of the constants. -/
structure SdeLipschitz (f : ℝ → (ι → ℝ) → ι → ℝ) (L : ℝ) : Prop where
  nonneg : 0 ≤ L
  lip : ∀ s t x y, ∑ i, (f s x i - f t y i) ^ 2 ≤ L * (|s - t| + ∑ i, (x i - y i) ^ 2)
  growth : ∀ t x, ∑ i, f t x i ^ 2 ≤ L * (1 + ∑ i, x i ^ 2)

theorem SdeLipschitz.coefficient {f : ℝ → (ι → ℝ) → ι → ℝ} {L : ℝ} (hf : SdeLipschitz f L) : SdeCoefficient f where
  meas t := by
    refine Continuous.measurable (continuous_pi fun i => ?_)
    rw [continuous_iff_continuousAt]
    intro x
    have h0 : Filter.Tendsto (fun y : ι → ℝ => L * ∑ j, (y j - x j) ^ 2) (nhds x) (nhds 0) := by
      have : Continuous fun y : ι → ℝ => L * ∑ j, (y j - x j) ^ 2 := by fun_prop
      have h := this.tendsto x
      simpa using h
    rw [ContinuousAt, Metric.tendsto_nhds]
    intro ε hε
    have := (h0.eventually (gt_mem_nhds (by positivity : (0 : ℝ) < ε ^ 2)))
    refine this.mono fun y hy => ?_
    have h1 := hf.lip t t y x
    have h2 : (f t y i - f t x i) ^ 2 ≤ ∑ j, (f t y j - f t x j) ^ 2 :=
      Finset.single_le_sum (f := fun j => (f t y j - f t x j) ^ 2) (fun j _ => sq_nonneg _) (Finset.mem_univ i)
    rw [sub_self, abs_zero, zero_add] at h1
    rw [Real.dist_eq]
    exact abs_lt_of_sq_lt_sq (by linarith) hε.le
  growth t := by
    refine ⟨Real.sqrt L, Real.sqrt_nonneg _, fun x i => ?_⟩
    have h1 := hf.growth t x
    have h2 : f t x i ^ 2 ≤ ∑ j, f t x j ^ 2 :=
      Finset.single_le_sum (f := fun j => f t x j ^ 2) (fun j _ => sq_nonneg _) (Finset.mem_univ i)
    have h3 : 0 ≤ ∑ j, |x j| := Finset.sum_nonneg fun j _ => abs_nonneg _
    have h4 : ∑ j, x j ^ 2 ≤ (∑ j, |x j|) ^ 2 := by
      have := Finset.sum_sq_le_sq_sum_of_nonneg (s := Finset.univ) (f := fun j => |x j|) (fun j _ => abs_nonneg _)
      simpa using this
    refine abs_le_of_sq_le_sq ?_ (by positivity)
    rw [mul_pow, Real.sq_sqrt hf.nonneg]
    have h5 : 1 + ∑ j, x j ^ 2 ≤ (1 + ∑ j, |x j|) ^ 2 := by nlinarith
    exact (h2.trans h1).trans (mul_le_mul_of_nonneg_left h5 hf.nonneg)

section strong

variable {P : Measure Ω} [IsProbabilityMeasure P] {W : Ω → ℝ → ι → ℝ} {τ : ℕ → ℝ} {f g : ℝ → (ι → ℝ) → ι → ℝ} {x0 : ι → ℝ}

/-- The mean square of a random vector. -/
noncomputable def meanSq (P : Measure Ω) (X : Ω → ι → ℝ) : ℝ := ∑ i, ∫ ω, X ω i ^ 2 ∂P

/-- A square integrable random vector that is known before step `k`. -/
structure KnownBefore (P : Measure Ω) (W : Ω → ℝ → ι → ℝ) (τ : ℕ → ℝ) (k : ℕ) (X : Ω → ι → ℝ) : Prop where
  meas : Measurable[pastOf W τ k] X
  memLp : ∀ i, MemLp (fun ω => X ω i) 2 P

namespace KnownBefore

variable {k : ℕ} {X Y : Ω → ι → ℝ}

theorem const (x : ι → ℝ) : KnownBefore P W τ k fun _ => x := ⟨measurable_const, fun _ => memLp_const _⟩

theorem sub (hX : KnownBefore P W τ k X) (hY : KnownBefore P W τ k Y) : KnownBefore P W τ k fun ω => X ω - Y ω :=
  ⟨hX.meas.sub hY.meas, fun i => (hX.memLp i).sub (hY.memLp i)⟩

theorem succ (hX : KnownBefore P W τ k X) : KnownBefore P W τ (k + 1) X := ⟨hX.meas.mono (pastOf_mono k) le_rfl, hX.memLp⟩

theorem coeff (hW : BrownianSteps P W τ) (hf : SdeCoefficient f) (hX : KnownBefore P W τ k X) (t : ℝ) :
    KnownBefore P W τ k fun ω => f t (X ω) :=
  ⟨(hf.meas t).comp hX.meas, hf.memLp t (hX.meas.mono (pastOf_le hW k) le_rfl) hX.memLp⟩

end KnownBefore

theorem meanSq_nonneg (X : Ω → ι → ℝ) : 0 ≤ meanSq P X :=
  Finset.sum_nonneg fun _ _ => integral_nonneg fun _ => sq_nonneg _

theorem meanSq_const (x : ι → ℝ) : meanSq P (fun _ => x) = ∑ i, x i ^ 2 := by simp [meanSq]

/-- Pointwise bounds carry over to mean squares. -/
theorem meanSq_le {X Y Z : Ω → ι → ℝ} {a b c : ℝ} (hX : ∀ i, MemLp (fun ω => X ω i) 2 P) (hY : ∀ i, MemLp (fun ω => Y ω i) 2 P)
    (hZ : ∀ i, MemLp (fun ω => Z ω i) 2 P)
    (h : ∀ ω, ∑ i, Z ω i ^ 2 ≤ a + b * ∑ i, X ω i ^ 2 + c * ∑ i, Y ω i ^ 2) :
    meanSq P Z ≤ a + b * meanSq P X + c * meanSq P Y := by
  have s : ∀ F : Ω → ι → ℝ, (∀ i, MemLp (fun ω => F ω i) 2 P) →
      Integrable (fun ω => ∑ i, F ω i ^ 2) P ∧ meanSq P F = ∫ ω, ∑ i, F ω i ^ 2 ∂P := fun F hF =>
    ⟨integrable_finsetSum _ fun i _ => (hF i).integrable_sq, (integral_finsetSum _ fun i _ => (hF i).integrable_sq).symm⟩
  obtain ⟨iX, eX⟩ := s X hX
  obtain ⟨iY, eY⟩ := s Y hY
  obtain ⟨iZ, eZ⟩ := s Z hZ
  rw [eX, eY, eZ]
  have i1 : Integrable (fun ω => a + b * ∑ i, X ω i ^ 2) P := (integrable_const a).add (iX.const_mul b)
  have := integral_mono iZ (i1.add (iY.const_mul c)) h
  refine this.trans (le_of_eq ?_)
  show ∫ ω, ((a + b * ∑ i, X ω i ^ 2) + c * ∑ i, Y ω i ^ 2) ∂P = _
  rw [integral_add i1 (iY.const_mul c), integral_add (integrable_const a) (iX.const_mul b), integral_const_mul,
    integral_const_mul, integral_const, probReal_univ, one_smul]

theorem meanSq_coeff {L : ℝ} (hf : SdeLipschitz f L) (hW : BrownianSteps P W τ) {k : ℕ} {X : Ω → ι → ℝ} (hX : KnownBefore P W τ k X) (t : ℝ) :
    meanSq P (fun ω => f t (X ω)) ≤ L * (1 + meanSq P X) := by
  have := meanSq_le (P := P) (a := L) (b := L) (c := 0) hX.memLp hX.memLp (hX.coeff hW hf.coefficient t).memLp
    fun ω => by have := hf.growth t (X ω); linarith
  linarith

theorem meanSq_coeff_sub {L : ℝ} (hf : SdeLipschitz f L) (hW : BrownianSteps P W τ) {k : ℕ} {X Y : Ω → ι → ℝ}
    (hX : KnownBefore P W τ k X) (hY : KnownBefore P W τ k Y) (s t : ℝ) :
    meanSq P (fun ω => f s (X ω) - f t (Y ω)) ≤ L * (|s - t| + meanSq P fun ω => X ω - Y ω) := by
  have hd := hX.sub hY
  have := meanSq_le (P := P) (a := L * |s - t|) (b := L) (c := 0) hd.memLp hd.memLp
    ((hX.coeff hW hf.coefficient s).sub (hY.coeff hW hf.coefficient t)).memLp
    fun ω => by
      have := hf.lip s t (X ω) (Y ω)
      simp only [Pi.sub_apply]
      linarith
  linarith

theorem meanSq_sub_le {k : ℕ} {X Y Z : Ω → ι → ℝ} (hX : KnownBefore P W τ k X) (hY : KnownBefore P W τ k Y)
    (hZ : KnownBefore P W τ k Z) : meanSq P (fun ω => X ω - Z ω) ≤
      2 * meanSq P (fun ω => X ω - Y ω) + 2 * meanSq P (fun ω => Y ω - Z ω) := by
  have := meanSq_le (P := P) (a := 0) (b := 2) (c := 2) (hX.sub hY).memLp (hY.sub hZ).memLp (hX.sub hZ).memLp fun ω => by
    rw [Finset.mul_sum, Finset.mul_sum, zero_add, ← Finset.sum_add_distrib]
    refine Finset.sum_le_sum fun i _ => ?_
    simp only [Pi.sub_apply]
    nlinarith [sq_nonneg (X ω i - Y ω i - (Y ω i - Z ω i))]
  linarith

/-- One step `A + h F + G ΔW` of vectors known before it. -/
theorem step_meanSq (hW : BrownianSteps P W τ) (hτ : StrictMono τ) {k : ℕ} {A F G : Ω → ι → ℝ} (hA : KnownBefore P W τ k A)
    (hF : KnownBefore P W τ k F) (hG : KnownBefore P W τ k G) (h1 : τ (k + 1) - τ k ≤ 1) :
    KnownBefore P W τ (k + 1) (fun ω => A ω + (τ (k + 1) - τ k) • F ω + G ω * (W ω (τ (k + 1)) - W ω (τ k))) ∧
    meanSq P (fun ω => A ω + (τ (k + 1) - τ k) • F ω + G ω * (W ω (τ (k + 1)) - W ω (τ k))) ≤
      (1 + (τ (k + 1) - τ k)) * meanSq P A + 2 * (τ (k + 1) - τ k) * meanSq P F + (τ (k + 1) - τ k) * meanSq P G := by
  have hh : 0 ≤ τ (k + 1) - τ k := sub_nonneg.2 (hτ (Nat.lt_succ_self k)).le
  have key := fun i => step_moments hW (k := k) (B := fun ω => A ω i + (τ (k + 1) - τ k) * F ω i) (Z := fun ω => G ω i)
    (((measurable_pi_apply i).comp hA.meas).add (((measurable_pi_apply i).comp hF.meas).const_mul _))
    ((measurable_pi_apply i).comp hG.meas) ((hA.memLp i).add ((hF.memLp i).const_mul _)) (hG.memLp i) i
  have hm : Measurable[pastOf W τ (k + 1)]
      fun ω => A ω + (τ (k + 1) - τ k) • F ω + G ω * (W ω (τ (k + 1)) - W ω (τ k)) :=
    (hA.succ.meas.add (hF.succ.meas.const_smul (τ (k + 1) - τ k))).add (hG.succ.meas.mul (increment_past k))
  refine ⟨⟨hm, fun i => (key i).1⟩, ?_⟩
  have e : meanSq P (fun ω => A ω + (τ (k + 1) - τ k) • F ω + G ω * (W ω (τ (k + 1)) - W ω (τ k))) =
      meanSq P (fun ω => A ω + (τ (k + 1) - τ k) • F ω) + (τ (k + 1) - τ k) * meanSq P G := by
    unfold meanSq
    rw [Finset.mul_sum, ← Finset.sum_add_distrib]
    exact Finset.sum_congr rfl fun i _ => (key i).2.2
  rw [e]
  have := meanSq_le (P := P) (a := 0) (b := 1 + (τ (k + 1) - τ k)) (c := 2 * (τ (k + 1) - τ k)) hA.memLp hF.memLp
    (Z := fun ω => A ω + (τ (k + 1) - τ k) • F ω) (fun i => (hA.memLp i).add ((hF.memLp i).const_mul _)) fun ω => by
    generalize τ (k + 1) - τ k = h at *
    rw [Finset.mul_sum, Finset.mul_sum, zero_add, ← Finset.sum_add_distrib]
    refine Finset.sum_le_sum fun i _ => ?_
    simp only [Pi.add_apply, Pi.smul_apply, smul_eq_mul]
    have h2 : 0 ≤ h * (A ω i - F ω i) ^ 2 := mul_nonneg hh (sq_nonneg _)
    have h3 : 0 ≤ (h - h * h) * F ω i ^ 2 := mul_nonneg (by nlinarith) (sq_nonneg _)
    nlinarith
  linarith

/-- Discrete Gronwall inequality on a grid. -/
theorem gronwall_grid {κ c : ℝ} (hκ : 0 ≤ κ) (hc : 0 ≤ c) {s h v : ℝ} (hs : 0 ≤ s) (hh : 0 ≤ h)
    (hv : v ≤ s * c * Real.exp (κ * s)) : (1 + h * κ) * v + h * c ≤ (s + h) * c * Real.exp (κ * (s + h)) := by
  have h1 : 1 + h * κ ≤ Real.exp (κ * h) := by have := Real.add_one_le_exp (κ * h); linarith
  have h2 : (1 + h * κ) * v ≤ Real.exp (κ * h) * (s * c * Real.exp (κ * s)) := by
    have h0 : 0 ≤ 1 + h * κ := by positivity
    exact (mul_le_mul_of_nonneg_left hv h0).trans (mul_le_mul_of_nonneg_right h1 (by positivity))
  have h3 : Real.exp (κ * (s + h)) = Real.exp (κ * h) * Real.exp (κ * s) := by rw [← Real.exp_add]; ring_nf
  have h4 : 1 ≤ Real.exp (κ * (s + h)) := Real.one_le_exp (by positivity)
  have h5 := mul_le_mul_of_nonneg_left h4 (mul_nonneg hh hc)
  rw [h3] at h5 ⊢
  linarith

/-! ### The coarse run on the fine grid -/

open Classical in
/-- The last marked time. -/
noncomputable def frozenTime (τ : ℕ → ℝ) (mark : ℕ → Prop) : ℕ → ℝ
  | 0 => τ 0
  | k + 1 => if mark (k + 1) then τ (k + 1) else frozenTime τ mark k

open Classical in
/-- Steps on the grid `τ` with coefficients frozen at the last marked point: the state, and the state at the last marked point. -/
noncomputable def frozen (f g : ℝ → (ι → ℝ) → ι → ℝ) (W : Ω → ℝ → ι → ℝ) (τ : ℕ → ℝ) (mark : ℕ → Prop) (x0 : ι → ℝ) (ω : Ω) :
    ℕ → (ι → ℝ) × (ι → ℝ)
  | 0 => (x0, x0)
  | k + 1 =>
    let p := frozen f g W τ mark x0 ω k
    let y := p.1 + (τ (k + 1) - τ k) • f (frozenTime τ mark k) p.2 + g (frozenTime τ mark k) p.2 * (W ω (τ (k + 1)) - W ω (τ k))
    (y, if mark (k + 1) then y else p.2)

variable {mark : ℕ → Prop} {L H : ℝ}

theorem frozen_known (hW : BrownianSteps P W τ) (hτ : StrictMono τ) (hf : SdeLipschitz f L) (hg : SdeLipschitz g L)
    (h1 : ∀ k, τ (k + 1) - τ k ≤ 1) (k : ℕ) :
    KnownBefore P W τ k (fun ω => (frozen f g W τ mark x0 ω k).1) ∧
    KnownBefore P W τ k (fun ω => (frozen f g W τ mark x0 ω k).2) := by
  induction k with
  | zero => exact ⟨.const x0, .const x0⟩
  | succ k ih =>
    have := (step_meanSq hW hτ ih.1 (ih.2.coeff hW hf.coefficient (frozenTime τ mark k))
      (ih.2.coeff hW hg.coefficient (frozenTime τ mark k)) (h1 k)).1
    refine ⟨this, ?_⟩
    by_cases hm : mark (k + 1)
    · simpa only [frozen, if_pos hm] using this
    · simpa only [frozen, if_neg hm] using ih.2.succ

/-- The moments of the frozen run stay bounded. -/
theorem frozen_bounded (hW : BrownianSteps P W τ) (hτ : StrictMono τ) (hf : SdeLipschitz f L) (hg : SdeLipschitz g L)
    (h1 : ∀ k, τ (k + 1) - τ k ≤ 1) (k : ℕ) :
    1 + meanSq P (fun ω => (frozen f g W τ mark x0 ω k).1) ≤ (1 + ∑ i, x0 i ^ 2) * Real.exp ((1 + 3 * L) * (τ k - τ 0)) ∧
    1 + meanSq P (fun ω => (frozen f g W τ mark x0 ω k).2) ≤ (1 + ∑ i, x0 i ^ 2) * Real.exp ((1 + 3 * L) * (τ k - τ 0)) := by
  have hL := hf.nonneg
  induction k with
  | zero => simp [frozen, meanSq_const]
  | succ k ih =>
    obtain ⟨k1, k2⟩ := frozen_known (mark := mark) (x0 := x0) hW hτ hf hg h1 k
    have hs := (step_meanSq hW hτ k1 (k2.coeff hW hf.coefficient (frozenTime τ mark k))
      (k2.coeff hW hg.coefficient (frozenTime τ mark k)) (h1 k)).2
    have hF := meanSq_coeff hf hW k2 (frozenTime τ mark k)
    have hG := meanSq_coeff hg hW k2 (frozenTime τ mark k)
    have hh : 0 ≤ τ (k + 1) - τ k := sub_nonneg.2 (hτ (Nat.lt_succ_self k)).le
    obtain ⟨R, hR⟩ : ∃ R, R = (1 + ∑ i, x0 i ^ 2) * Real.exp ((1 + 3 * L) * (τ k - τ 0)) := ⟨_, rfl⟩
    rw [← hR] at ih
    have hRpos : 0 ≤ R := by
      have := meanSq_nonneg (P := P) (fun ω => (frozen f g W τ mark x0 ω k).1)
      linarith [ih.1]
    have hexp : (1 + (τ (k + 1) - τ k) * (1 + 3 * L)) * R ≤
        (1 + ∑ i, x0 i ^ 2) * Real.exp ((1 + 3 * L) * (τ (k + 1) - τ 0)) := by
      have e1 : (1 + 3 * L) * (τ (k + 1) - τ 0) = (1 + 3 * L) * (τ k - τ 0) + (1 + 3 * L) * (τ (k + 1) - τ k) := by ring
      rw [e1, Real.exp_add, ← mul_assoc, ← hR, mul_comm]
      refine mul_le_mul_of_nonneg_left ?_ hRpos
      have := Real.add_one_le_exp ((1 + 3 * L) * (τ (k + 1) - τ k))
      linarith
    have hY : 1 + meanSq P (fun ω => (frozen f g W τ mark x0 ω (k + 1)).1) ≤ (1 + (τ (k + 1) - τ k) * (1 + 3 * L)) * R := by
      have e : (fun ω => (frozen f g W τ mark x0 ω (k + 1)).1) = fun ω => (frozen f g W τ mark x0 ω k).1 +
        (τ (k + 1) - τ k) • f (frozenTime τ mark k) (frozen f g W τ mark x0 ω k).2 +
        g (frozenTime τ mark k) (frozen f g W τ mark x0 ω k).2 * (W ω (τ (k + 1)) - W ω (τ k)) := rfl
      rw [e]
      generalize meanSq P (fun ω => (frozen f g W τ mark x0 ω k).1 +
        (τ (k + 1) - τ k) • f (frozenTime τ mark k) (frozen f g W τ mark x0 ω k).2 +
        g (frozenTime τ mark k) (frozen f g W τ mark x0 ω k).2 * (W ω (τ (k + 1)) - W ω (τ k))) = v0 at hs ⊢
      generalize meanSq P (fun ω => f (frozenTime τ mark k) (frozen f g W τ mark x0 ω k).2) = vF at hs hF
      generalize meanSq P (fun ω => g (frozenTime τ mark k) (frozen f g W τ mark x0 ω k).2) = vG at hs hG
      generalize meanSq P (fun ω => (frozen f g W τ mark x0 ω k).1) = v1 at hs ih
      generalize meanSq P (fun ω => (frozen f g W τ mark x0 ω k).2) = v2 at hF hG ih
      generalize τ (k + 1) - τ k = h at *
      have a1 : L * (1 + v2) ≤ L * R := mul_le_mul_of_nonneg_left ih.2 hL
      have a2 : h * vF ≤ h * (L * R) := mul_le_mul_of_nonneg_left (hF.trans a1) hh
      have a3 : h * vG ≤ h * (L * R) := mul_le_mul_of_nonneg_left (hG.trans a1) hh
      have a4 : (1 + h) * v1 ≤ (1 + h) * (R - 1) := mul_le_mul_of_nonneg_left (by linarith [ih.1]) (by linarith)
      linarith
    refine ⟨hY.trans hexp, ?_⟩
    by_cases hm : mark (k + 1)
    · simp only [frozen, if_pos hm]
      exact hY.trans hexp
    · simp only [frozen, if_neg hm]
      refine ih.2.trans (le_trans ?_ hexp)
      have := mul_nonneg (mul_nonneg hh (by linarith : 0 ≤ 1 + 3 * L)) hRpos
      linarith

theorem frozenTime_le (hτ : StrictMono τ) (k : ℕ) : frozenTime τ mark k ≤ τ k := by
  induction k with
  | zero => exact le_rfl
  | succ k ih =>
    simp only [frozenTime]
    split
    · exact le_rfl
    · exact ih.trans (hτ (Nat.lt_succ_self k)).le

/-- The frozen run moves little between marked points. -/
theorem frozen_drift (hW : BrownianSteps P W τ) (hτ : StrictMono τ) (hf : SdeLipschitz f L) (hg : SdeLipschitz g L)
    (h1 : ∀ k, τ (k + 1) - τ k ≤ 1) {R : ℝ} (k : ℕ)
    (hR : ∀ j ≤ k, 1 + meanSq P (fun ω => (frozen f g W τ mark x0 ω j).2) ≤ R) :
    meanSq P (fun ω => (frozen f g W τ mark x0 ω k).1 - (frozen f g W τ mark x0 ω k).2) ≤
      (τ k - frozenTime τ mark k) * (3 * L * R) * Real.exp (1 * (τ k - frozenTime τ mark k)) := by
  have hL := hf.nonneg
  have hR0 : 0 ≤ R := by
    have := meanSq_nonneg (P := P) (fun ω => (frozen f g W τ mark x0 ω 0).2)
    linarith [hR 0 (Nat.zero_le _)]
  induction k with
  | zero => simp [frozen, meanSq, frozenTime]
  | succ k ih =>
    by_cases hm : mark (k + 1)
    · simp [frozen, hm, frozenTime, meanSq]
    · obtain ⟨k1, k2⟩ := frozen_known (mark := mark) (x0 := x0) hW hτ hf hg h1 k
      have hs := (step_meanSq hW hτ (k1.sub k2) (k2.coeff hW hf.coefficient (frozenTime τ mark k))
        (k2.coeff hW hg.coefficient (frozenTime τ mark k)) (h1 k)).2
      have hF := meanSq_coeff hf hW k2 (frozenTime τ mark k)
      have hG := meanSq_coeff hg hW k2 (frozenTime τ mark k)
      have hh : 0 ≤ τ (k + 1) - τ k := sub_nonneg.2 (hτ (Nat.lt_succ_self k)).le
      have hk := hR k (Nat.le_succ k)
      have a1 := mul_le_mul_of_nonneg_left hk hL
      have a2 := mul_le_mul_of_nonneg_left (hF.trans a1) hh
      have a3 := mul_le_mul_of_nonneg_left (hG.trans a1) hh
      have e : (fun ω => (frozen f g W τ mark x0 ω (k + 1)).1 - (frozen f g W τ mark x0 ω (k + 1)).2) = fun ω =>
        ((frozen f g W τ mark x0 ω k).1 - (frozen f g W τ mark x0 ω k).2) +
        (τ (k + 1) - τ k) • f (frozenTime τ mark k) (frozen f g W τ mark x0 ω k).2 +
        g (frozenTime τ mark k) (frozen f g W τ mark x0 ω k).2 * (W ω (τ (k + 1)) - W ω (τ k)) := by
        funext ω
        simp only [frozen, if_neg hm]
        abel
      have ht : frozenTime τ mark (k + 1) = frozenTime τ mark k := by simp only [frozenTime, if_neg hm]
      have hg' := gronwall_grid (κ := 1) (c := 3 * L * R) zero_le_one (by positivity)
        (s := τ k - frozenTime τ mark k) (h := τ (k + 1) - τ k) (sub_nonneg.2 (frozenTime_le hτ k)) hh
        (ih fun j hj => hR j (hj.trans (Nat.le_succ k)))
      have es : τ k - frozenTime τ mark k + (τ (k + 1) - τ k) = τ (k + 1) - frozenTime τ mark k := by ring
      rw [es] at hg'
      rw [e, ht]
      refine le_trans ?_ hg'
      linarith

/-- The distance of the frozen run from the run on the fine grid. -/
theorem frozen_error (hW : BrownianSteps P W τ) (hτ : StrictMono τ) (hf : SdeLipschitz f L) (hg : SdeLipschitz g L)
    (hH : ∀ k, τ k - frozenTime τ mark k ≤ H) (hH1 : H ≤ 1) (h1 : ∀ k, τ (k + 1) - τ k ≤ 1) {R : ℝ} (k : ℕ)
    (hR : ∀ j ≤ k, 1 + meanSq P (fun ω => (frozen f g W τ mark x0 ω j).2) ≤ R) :
    meanSq P (fun ω => emState f g W τ x0 ω k - (frozen f g W τ mark x0 ω k).1) ≤
      (τ k - τ 0) * (3 * L * (1 + 18 * L * R) * H) * Real.exp ((1 + 6 * L) * (τ k - τ 0)) := by
  have hL := hf.nonneg
  have hR0 : 0 ≤ R := by
    have := meanSq_nonneg (P := P) (fun ω => (frozen f g W τ mark x0 ω 0).2)
    linarith [hR 0 (Nat.zero_le _)]
  have hH0 : 0 ≤ H := by have := hH 0; simp only [frozenTime, sub_self] at this; exact this
  induction k with
  | zero => simp [frozen, meanSq, emState]
  | succ k ih =>
    obtain ⟨k1, k2⟩ := frozen_known (mark := mark) (x0 := x0) hW hτ hf hg h1 k
    have kx : KnownBefore P W τ k fun ω => emState f g W τ x0 ω k :=
      ⟨emState_past hf.coefficient hg.coefficient k, emState_memLp hW hf.coefficient hg.coefficient k⟩
    have hs := (step_meanSq hW hτ (kx.sub k1)
      ((kx.coeff hW hf.coefficient (τ k)).sub (k2.coeff hW hf.coefficient (frozenTime τ mark k)))
      ((kx.coeff hW hg.coefficient (τ k)).sub (k2.coeff hW hg.coefficient (frozenTime τ mark k))) (h1 k)).2
    have hF := meanSq_coeff_sub hf hW kx k2 (τ k) (frozenTime τ mark k)
    have hG := meanSq_coeff_sub hg hW kx k2 (τ k) (frozenTime τ mark k)
    have hh : 0 ≤ τ (k + 1) - τ k := sub_nonneg.2 (hτ (Nat.lt_succ_self k)).le
    have hsplit := meanSq_sub_le kx k1 k2
    have hst : 0 ≤ τ k - frozenTime τ mark k := sub_nonneg.2 (frozenTime_le hτ k)
    have hdr := frozen_drift (mark := mark) (x0 := x0) hW hτ hf hg h1 k fun j hj => hR j (hj.trans (Nat.le_succ k))
    have hd : meanSq P (fun ω => (frozen f g W τ mark x0 ω k).1 - (frozen f g W τ mark x0 ω k).2) ≤ 9 * L * R * H := by
      refine hdr.trans ?_
      have he : Real.exp (1 * (τ k - frozenTime τ mark k)) ≤ 3 := by
        have : Real.exp (1 * (τ k - frozenTime τ mark k)) ≤ Real.exp 1 :=
          Real.exp_le_exp.2 (by linarith [hH k])
        linarith [Real.exp_one_lt_d9]
      have hc : 0 ≤ 3 * L * R := by positivity
      calc _ ≤ H * (3 * L * R) * 3 :=
            mul_le_mul (mul_le_mul_of_nonneg_right (hH k) hc) he (Real.exp_pos _).le (mul_nonneg hH0 hc)
        _ = _ := by ring
    have hg' := gronwall_grid (κ := 1 + 6 * L) (c := 3 * L * (1 + 18 * L * R) * H) (by positivity) (by positivity)
      (s := τ k - τ 0) (h := τ (k + 1) - τ k) (sub_nonneg.2 (hτ.monotone (Nat.zero_le k))) hh
      (ih fun j hj => hR j (hj.trans (Nat.le_succ k)))
    have e : (fun ω => emState f g W τ x0 ω (k + 1) - (frozen f g W τ mark x0 ω (k + 1)).1) = fun ω =>
        (emState f g W τ x0 ω k - (frozen f g W τ mark x0 ω k).1) + (τ (k + 1) - τ k) •
          (f (τ k) (emState f g W τ x0 ω k) - f (frozenTime τ mark k) (frozen f g W τ mark x0 ω k).2) +
          (g (τ k) (emState f g W τ x0 ω k) - g (frozenTime τ mark k) (frozen f g W τ mark x0 ω k).2) *
            (W ω (τ (k + 1)) - W ω (τ k)) := by
      funext ω
      simp only [frozen, emState, sub_mul, smul_sub]
      abel
    have es : τ k - τ 0 + (τ (k + 1) - τ k) = τ (k + 1) - τ 0 := by ring
    rw [es] at hg'
    rw [e]
    refine le_trans ?_ hg'
    refine hs.trans ?_
    have hab : |τ k - frozenTime τ mark k| ≤ H := by rw [abs_of_nonneg hst]; exact hH k
    generalize meanSq P (fun ω => emState f g W τ x0 ω k - (frozen f g W τ mark x0 ω k).1) = ε at *
    generalize meanSq P (fun ω => (frozen f g W τ mark x0 ω k).1 - (frozen f g W τ mark x0 ω k).2) = δ at *
    generalize meanSq P (fun ω => emState f g W τ x0 ω k - (frozen f g W τ mark x0 ω k).2) = η at *
    have a1 : |τ k - frozenTime τ mark k| + η ≤ H + 2 * ε + 2 * (9 * L * R * H) := by linarith
    have a2 := mul_le_mul_of_nonneg_left a1 hL
    have a3 := mul_le_mul_of_nonneg_left (hF.trans a2) hh
    have a4 := mul_le_mul_of_nonneg_left (hG.trans a2) hh
    generalize τ (k + 1) - τ k = h at *
    have e5 : (1 + h * (1 + 6 * L)) * ε + h * (3 * L * (1 + 18 * L * R) * H) =
      (1 + h) * ε + 3 * (h * (L * (H + 2 * ε + 2 * (9 * L * R * H)))) := by ring
    rw [e5]
    linarith

/-! ### Nested grids -/

variable {c : ℕ → ℕ}

theorem not_marked (hc : StrictMono c) {j k : ℕ} (h1 : c j < k) (h2 : k < c (j + 1)) : k ∉ Set.range c := by
  rintro ⟨l, rfl⟩
  have a1 := hc.lt_iff_lt.1 h1
  have a2 := hc.lt_iff_lt.1 h2
  omega

/-- Between coarse points the frozen run continues the coarse run linearly in time and noise. -/
theorem frozen_segment (hc : StrictMono c) (j : ℕ) (y : ι → ℝ) (ω : Ω)
    (hs : frozen f g W τ (· ∈ Set.range c) x0 ω (c j) = (y, y)) (ht : frozenTime τ (· ∈ Set.range c) (c j) = τ (c j)) (r : ℕ)
    (hr : c j + r < c (j + 1)) :
    frozen f g W τ (· ∈ Set.range c) x0 ω (c j + r) =
      (y + (τ (c j + r) - τ (c j)) • f (τ (c j)) y + g (τ (c j)) y * (W ω (τ (c j + r)) - W ω (τ (c j))), y) ∧
    frozenTime τ (· ∈ Set.range c) (c j + r) = τ (c j) := by
  induction r with
  | zero => exact ⟨by rw [Nat.add_zero, hs]; simp, ht⟩
  | succ r ih =>
    obtain ⟨i1, i2⟩ := ih (by omega)
    have hm : (c j + r) + 1 ∉ Set.range c := not_marked hc (j := j) (by omega) (by omega)
    rw [← Nat.add_assoc]
    simp only [frozen, frozenTime, if_neg hm, i1, i2, Prod.mk.injEq, and_true]
    rw [sub_smul, sub_smul, sub_smul, mul_sub, mul_sub, mul_sub]
    abel

/-- At the coarse points the frozen run is the run on the coarse grid. -/
theorem frozen_coarse (hc : StrictMono c) (c0 : c 0 = 0) (ω : Ω) (j : ℕ) :
    frozen f g W τ (· ∈ Set.range c) x0 ω (c j) = (emState f g W (τ ∘ c) x0 ω j, emState f g W (τ ∘ c) x0 ω j) ∧
    frozenTime τ (· ∈ Set.range c) (c j) = τ (c j) := by
  induction j with
  | zero => rw [c0]; exact ⟨rfl, rfl⟩
  | succ j ih =>
    have hlt := hc (Nat.lt_add_one j)
    obtain ⟨r, hr⟩ : ∃ r, c (j + 1) = c j + r + 1 := ⟨c (j + 1) - c j - 1, by omega⟩
    obtain ⟨i1, i2⟩ := frozen_segment (W := W) hc j _ ω ih.1 ih.2 r (by omega)
    have hm : (c j + r) + 1 ∈ Set.range c := ⟨j + 1, hr⟩
    rw [hr]
    simp only [frozen, frozenTime, if_pos hm, i1, i2, Prod.mk.injEq, and_true, and_self]
    simp only [emState, Function.comp_apply, hr]
    rw [sub_smul, sub_smul, sub_smul, mul_sub, mul_sub, mul_sub]
    abel

theorem exists_segment (hc : StrictMono c) (c0 : c 0 = 0) (k : ℕ) : ∃ j, c j ≤ k ∧ k < c (j + 1) := by
  induction k with
  | zero => exact ⟨0, by omega, by have := hc (Nat.lt_add_one 0); rw [c0] at this; simpa using this⟩
  | succ k ih =>
    obtain ⟨j, h1, h2⟩ := ih
    by_cases h : k + 1 < c (j + 1)
    · exact ⟨j, by omega, h⟩
    · have := hc (Nat.lt_add_one (j + 1))
      exact ⟨j + 1, by omega, by omega⟩

/-- The constant of the error bound: it depends on the coefficients, the horizon and the size of the initial state only. -/
noncomputable def strongConstant (L T a : ℝ) : ℝ :=
  T * (3 * L * (1 + 18 * L * ((1 + a) * Real.exp ((1 + 3 * L) * T)))) * Real.exp ((1 + 6 * L) * T)

/-- The difference of the Euler–Maruyama states on a grid and on a refinement of it. -/
theorem strong_error (hW : BrownianSteps P W τ) (hτ : StrictMono τ) (hf : SdeLipschitz f L) (hg : SdeLipschitz g L)
    (hc : StrictMono c) (c0 : c 0 = 0) (hH : ∀ j, τ (c (j + 1)) - τ (c j) ≤ H) (hH1 : H ≤ 1) (x0 : ι → ℝ) (j : ℕ) (T : ℝ)
    (hT : τ (c j) - τ 0 ≤ T) :
    ∑ i, ∫ ω, (emState f g W τ x0 ω (c j) i - emState f g W (τ ∘ c) x0 ω j i) ^ 2 ∂P ≤ strongConstant L T (∑ i, x0 i ^ 2) * H := by
  have hL := hf.nonneg
  have hgap : ∀ k, τ k - frozenTime τ (· ∈ Set.range c) k ≤ H := by
    intro k
    obtain ⟨l, h1, h2⟩ := exists_segment hc c0 k
    obtain ⟨r, rfl⟩ := Nat.exists_eq_add_of_le h1
    obtain ⟨ω⟩ : Nonempty Ω := P.nonempty_of_neZero
    obtain ⟨s1, s2⟩ := frozen_coarse (f := f) (g := g) (W := W) (τ := τ) (x0 := x0) hc c0 ω l
    rw [(frozen_segment (W := W) hc l _ ω s1 s2 r h2).2]
    have := hτ.monotone h2.le
    linarith [hH l]
  have h1 : ∀ k, τ (k + 1) - τ k ≤ 1 := by
    intro k
    obtain ⟨l, a1, a2⟩ := exists_segment hc c0 k
    have b1 := hτ.monotone a1
    have b2 := hτ.monotone (show k + 1 ≤ c (l + 1) from a2)
    linarith [hH l]
  have hH0 : 0 ≤ H := by have := hgap 0; simp only [frozenTime, sub_self] at this; exact this
  have hT0 : 0 ≤ τ (c j) - τ 0 := sub_nonneg.2 (hτ.monotone (Nat.zero_le _))
  have ha : 0 ≤ ∑ i, x0 i ^ 2 := Finset.sum_nonneg fun _ _ => sq_nonneg _
  have hR : ∀ k ≤ c j, 1 + meanSq P (fun ω => (frozen f g W τ (· ∈ Set.range c) x0 ω k).2) ≤
      (1 + ∑ i, x0 i ^ 2) * Real.exp ((1 + 3 * L) * T) := by
    intro k hk
    refine (frozen_bounded hW hτ hf hg h1 k).2.trans ?_
    refine mul_le_mul_of_nonneg_left (Real.exp_le_exp.2 ?_) (by linarith)
    refine mul_le_mul_of_nonneg_left ?_ (by linarith)
    linarith [hτ.monotone hk]
  have := frozen_error hW hτ hf hg hgap hH1 h1 (c j) hR
  have e : (fun ω => (frozen f g W τ (· ∈ Set.range c) x0 ω (c j)).1) = fun ω => emState f g W (τ ∘ c) x0 ω j := by
    funext ω
    rw [(frozen_coarse hc c0 ω j).1]
  have e' : meanSq P (fun ω => emState f g W τ x0 ω (c j) - (frozen f g W τ (· ∈ Set.range c) x0 ω (c j)).1) =
      ∑ i, ∫ ω, (emState f g W τ x0 ω (c j) i - emState f g W (τ ∘ c) x0 ω j i) ^ 2 ∂P := by
    unfold meanSq
    simp only [(frozen_coarse hc c0 _ j).1, Pi.sub_apply]
  rw [← e']
  refine this.trans ?_
  unfold strongConstant
  have hexp : Real.exp ((1 + 6 * L) * (τ (c j) - τ 0)) ≤ Real.exp ((1 + 6 * L) * T) :=
    Real.exp_le_exp.2 (mul_le_mul_of_nonneg_left hT (by linarith))
  have hB : 0 ≤ 3 * L * (1 + 18 * L * ((1 + ∑ i, x0 i ^ 2) * Real.exp ((1 + 3 * L) * T))) := by positivity
  calc _ ≤ T * (3 * L * (1 + 18 * L * ((1 + ∑ i, x0 i ^ 2) * Real.exp ((1 + 3 * L) * T))) * H) *
        Real.exp ((1 + 6 * L) * T) := by
        refine mul_le_mul (mul_le_mul_of_nonneg_right hT (mul_nonneg hB hH0)) hexp (Real.exp_pos _).le ?_
        exact mul_nonneg (hT0.trans hT) (mul_nonneg hB hH0)
    _ = _ := by ring

/-- **C116.** Strong convergence of `sdeint(..., solver='euler')`: let the drift and the diffusion be Lipschitz in the state,
`1/2`-Hölder in time and of linear growth. Run the solver on a grid and on any refinement of it, along the same Brownian path.
Then at every time of the coarse grid up to `T` the mean-square difference of the two results is at most a constant times the
mesh `H ≤ 1` of the coarse grid: strong order `1/2`. The constant does not depend on the grids. -/
theorem C116_strong (sqrt : ℝ → ℝ) (hW : BrownianSteps P W τ) (hτ : StrictMono τ) (hf : SdeLipschitz f L) (hg : SdeLipschitz g L)
    (hc : StrictMono c) (c0 : c 0 = 0) (hH : ∀ j, τ (c (j + 1)) - τ (c j) ≤ H) (hH1 : H ≤ 1) (x0 : ι → ℝ) {noise : String}
    (hn : noise ∈ ["general", "diagonal", "scalar", "additive"]) (n : ℕ) (hn1 : 1 ≤ n) :
    ∃ coarse fine : Ω → List (ι → ℝ),
      (∀ ω, sdeint (m := Except PyErr) sqrt (.sdeFunc (pureSde f g (some noise) (some "ito"))) x0 (gridOf (τ ∘ c) n)
        (.inl "euler") (pathBm (W ω)) [] = .ok (gridOf (τ ∘ c) n, coarse ω)) ∧
      (∀ ω, sdeint (m := Except PyErr) sqrt (.sdeFunc (pureSde f g (some noise) (some "ito"))) x0 (gridOf τ (c n))
        (.inl "euler") (pathBm (W ω)) [] = .ok (gridOf τ (c n), fine ω)) ∧
      ∀ j ≤ n, ∀ T, τ (c j) - τ 0 ≤ T →
        ∑ i, ∫ ω, ((fine ω).getD (c j) 0 i - (coarse ω).getD j 0 i) ^ 2 ∂P ≤ strongConstant L T (∑ i, x0 i ^ 2) * H := by
  have hcn : 1 ≤ c n := by have := hc.id_le n; simp only [id] at this; omega
  refine ⟨fun ω => (List.range (n + 1)).map (emState f g W (τ ∘ c) x0 ω), fun ω => (List.range (c n + 1)).map (emState f g W τ x0 ω),
    fun ω => sdeint_emState sqrt _ _ W (hτ.comp hc) x0 hn n hn1 ω, fun ω => sdeint_emState sqrt _ _ W hτ x0 hn (c n) hcn ω,
    fun j hj T hT => ?_⟩
  have hk' : c j < c n + 1 := Nat.lt_succ_of_le (hc.monotone hj)
  have hj' : j < n + 1 := by omega
  simp only [List.getD_eq_getElem?_getD, List.getElem?_map, List.getElem?_range hk', List.getElem?_range hj', Option.map_some,
    Option.getD_some]
  exact strong_error hW hτ hf hg hc c0 hH hH1 x0 j T hT

end strong

theorem SdeLipschitz.mono {f : ℝ → (ι → ℝ) → ι → ℝ} {L L' : ℝ} (h : SdeLipschitz f L) (hL : L ≤ L') : SdeLipschitz f L' where
  nonneg := h.nonneg.trans hL
  lip s t x y := (h.lip s t x y).trans (mul_le_mul_of_nonneg_right hL
    (add_nonneg (abs_nonneg _) (Finset.sum_nonneg fun _ _ => sq_nonneg _)))
  growth t x := (h.growth t x).trans (mul_le_mul_of_nonneg_right hL
    (add_nonneg zero_le_one (Finset.sum_nonneg fun _ _ => sq_nonneg _)))

/-! ### Brownian motion -/

theorem iIndepFun_curry {κ : Type} {P : Measure Ω} [IsProbabilityMeasure P] {X : κ → ι → Ω → ℝ} (mX : ∀ j i, Measurable (X j i))
    (h : iIndepFun (fun (p : κ × ι) ω => X p.1 p.2 ω) P) : iIndepFun (fun j ω => (X j · ω)) P := by
  have h' : iIndepFun (fun (p : (_ : κ) × ι) ω => X p.1 p.2 ω) P := h.precomp (Equiv.sigmaEquivProd κ ι).injective
  have mX' : ∀ j, Measurable fun ω => (X j · ω) := fun j => measurable_pi_lambda _ fun i => mX j i
  have : ∀ j i, IsProbabilityMeasure (P.map (X j i)) := fun j i => Measure.isProbabilityMeasure_map (mX j i).aemeasurable
  rw [iIndepFun_iff_map_fun_eq_infinitePi_map mX']
  have e : (fun ω j i => X j i ω) = (MeasurableEquiv.piCurry (fun (_ : κ) (_ : ι) => ℝ)) ∘
      (fun ω (p : (_ : κ) × ι) => X p.1 p.2 ω) := by
    ext; simp [Sigma.curry]
  have e1 : P.map (fun ω j i => X j i ω) = Measure.infinitePi fun j => Measure.infinitePi fun i => P.map (X j i) := by
    rw [e, ← Measure.map_map (MeasurableEquiv.measurable _) (by fun_prop),
      (iIndepFun_iff_map_fun_eq_infinitePi_map (by fun_prop)).1 h', Measure.infinitePi_map_piCurry (fun j i => P.map (X j i))]
  refine e1.trans ?_
  congr 1
  funext j
  have hj : iIndepFun (fun i => X j i) P := h.precomp (g := fun i => (j, i)) fun a b hab => by simpa using hab
  exact ((iIndepFun_iff_map_fun_eq_infinitePi_map (mX j)).1 hj).symm

theorem gaussian_second {P : Measure Ω} {v : ℝ} (h0 : 0 ≤ v) {X : Ω → ℝ} (h : MeasurePreserving X P (gaussianReal 0 v.toNNReal)) :
    ∫ ω, X ω ^ 2 ∂P = v := by
  have := integral_map (μ := P) (φ := X) (f := fun x : ℝ => x ^ 2) h.measurable.aemeasurable
    (measurable_id.pow_const 2).aestronglyMeasurable
  rw [← this, h.map_eq]
  have hvar := variance_id_gaussianReal (μ := 0) (v := v.toNNReal)
  rw [variance_of_integral_eq_zero measurable_id.aemeasurable (by simp)] at hvar
  simp only [id] at hvar
  rw [hvar, Real.coe_toNNReal _ h0]

open scoped NNReal in
/-- The increments of independent Brownian motions over any grid of nonnegative times are Brownian steps. -/
theorem brownianSteps_of_brownian {P : Measure Ω} [IsProbabilityMeasure P] {B : ι → ℝ≥0 → Ω → ℝ} (hm : ∀ i t, Measurable (B i t))
    (hB : ∀ i, IsPreBrownianReal (B i) P) (hind : iIndepFun (fun i ω t => B i t ω) P) {τ : ℕ → ℝ} (hτ : StrictMono τ)
    (h0 : 0 ≤ τ 0) : BrownianSteps P (fun ω t i => B i t.toNNReal ω) τ := by
  have hpos : ∀ k, 0 ≤ τ k := fun k => h0.trans (hτ.monotone (Nat.zero_le k))
  have hmono : Monotone fun k => (τ k).toNNReal := fun a b hab => Real.toNNReal_mono (hτ.monotone hab)
  have mX : ∀ k i, Measurable fun ω => B i (τ (k + 1)).toNNReal ω - B i (τ k).toNNReal ω := fun k i => (hm i _).sub (hm i _)
  have hlaw : ∀ k i, HasLaw (fun ω => B i (τ (k + 1)).toNNReal ω - B i (τ k).toNNReal ω)
      (gaussianReal 0 (Real.toNNReal (τ (k + 1) - τ k))) P := by
    intro k i
    have := (hB i).hasLaw_sub (τ (k + 1)).toNNReal (τ k).toNNReal
    have e : nndist ((τ (k + 1)).toNNReal : ℝ) ((τ k).toNNReal : ℝ) = Real.toNNReal (τ (k + 1) - τ k) := by
      have hk : 0 ≤ τ (k + 1) - τ k := sub_nonneg.2 (hτ (Nat.lt_succ_self k)).le
      rw [Real.coe_toNNReal _ (hpos _), Real.coe_toNNReal _ (hpos _)]
      ext
      rw [coe_nndist, Real.dist_eq, abs_of_nonneg hk, Real.coe_toNNReal _ hk]
    rw [← e]
    exact this
  refine ⟨fun k => measurable_pi_lambda _ fun i => mX k i, ?_, fun k i => ?_, fun k i => ?_, fun k i => ?_⟩
  · refine iIndepFun_curry (X := fun k i ω => B i (τ (k + 1)).toNNReal ω - B i (τ k).toNNReal ω) mX ?_
    have h1 : iIndepFun (fun i ω k => B i (τ (k + 1)).toNNReal ω - B i (τ k).toNNReal ω) P :=
      hind.comp (fun _ (b : ℝ≥0 → ℝ) (k : ℕ) => b (τ (k + 1)).toNNReal - b (τ k).toNNReal) fun i => by fun_prop
    have h2 := iIndepFun_uncurry' (X := fun i k ω => B i (τ (k + 1)).toNNReal ω - B i (τ k).toNNReal ω) (fun i k => mX k i) h1
      fun i => (hB i).hasIndepIncrements.nat hmono
    exact h2.precomp (g := fun p : ℕ × ι => (p.2, p.1)) fun a b hab => by
      simp only [Prod.mk.injEq] at hab
      exact Prod.ext hab.2 hab.1
  · exact (memLp_id_gaussianReal 2).comp_measurePreserving ⟨mX k i, (hlaw k i).map_eq⟩
  · have := (hlaw k i).integral_eq
    rw [integral_id_gaussianReal] at this
    exact this
  · exact gaussian_second (sub_nonneg.2 (hτ (Nat.lt_succ_self k)).le) ⟨mX k i, (hlaw k i).map_eq⟩

/-- Linear coefficients meet the conditions. -/
theorem linear_lipschitz (a : ι → ℝ) : SdeLipschitz (fun (_ : ℝ) (x : ι → ℝ) => a * x) (∑ j, a j ^ 2) where
  nonneg := Finset.sum_nonneg fun _ _ => sq_nonneg _
  lip s t x y := by
    have h0 : 0 ≤ ∑ j, a j ^ 2 := Finset.sum_nonneg fun _ _ => sq_nonneg _
    have h1 : ∑ i, ((a * x) i - (a * y) i) ^ 2 ≤ ∑ i, (∑ j, a j ^ 2) * (x i - y i) ^ 2 := by
      refine Finset.sum_le_sum fun i _ => ?_
      have h2 : a i ^ 2 ≤ ∑ j, a j ^ 2 :=
        Finset.single_le_sum (f := fun j => a j ^ 2) (fun j _ => sq_nonneg _) (Finset.mem_univ i)
      have h3 := mul_le_mul_of_nonneg_right h2 (sq_nonneg (x i - y i))
      simp only [Pi.mul_apply]
      linarith
    rw [← Finset.mul_sum] at h1
    have h4 := mul_nonneg h0 (abs_nonneg (s - t))
    linarith
  growth t x := by
    have h0 : 0 ≤ ∑ j, a j ^ 2 := Finset.sum_nonneg fun _ _ => sq_nonneg _
    have h1 : ∑ i, (a * x) i ^ 2 ≤ ∑ i, (∑ j, a j ^ 2) * x i ^ 2 := by
      refine Finset.sum_le_sum fun i _ => ?_
      have h2 : a i ^ 2 ≤ ∑ j, a j ^ 2 :=
        Finset.single_le_sum (f := fun j => a j ^ 2) (fun j _ => sq_nonneg _) (Finset.mem_univ i)
      have h3 := mul_le_mul_of_nonneg_right h2 (sq_nonneg (x i))
      simp only [Pi.mul_apply]
      linarith
    rw [← Finset.mul_sum] at h1
    linarith

/-- The hypotheses of `C116_strong` are met: geometric Brownian motion on the grid of spacing `1/100`, refined from the one of
spacing `1/10`. -/
example (a b : Fin 3 → ℝ) : ∃ (P : Measure (ℕ → Fin 3 → ℝ)) (W : (ℕ → Fin 3 → ℝ) → ℝ → Fin 3 → ℝ),
    IsProbabilityMeasure P ∧ BrownianSteps P W (fun k => (k : ℝ) / 100) ∧ StrictMono (fun k : ℕ => (k : ℝ) / 100) ∧
    SdeLipschitz (fun (_ : ℝ) (x : Fin 3 → ℝ) => a * x) (∑ j, a j ^ 2 + ∑ j, b j ^ 2) ∧
    SdeLipschitz (fun (_ : ℝ) (x : Fin 3 → ℝ) => b * x) (∑ j, a j ^ 2 + ∑ j, b j ^ 2) ∧
    StrictMono (fun j : ℕ => 10 * j) ∧ ∀ j : ℕ, ((10 * (j + 1) : ℕ) : ℝ) / 100 - ((10 * j : ℕ) : ℝ) / 100 ≤ 1 / 10 := by
  have hτ : StrictMono (fun k : ℕ => (k : ℝ) / 100) := by
    intro i j h
    have : (i : ℝ) < j := by exact_mod_cast h
    show (i : ℝ) / 100 < (j : ℝ) / 100
    linarith
  obtain ⟨P, W, h1, h2⟩ := exists_brownianSteps (ι := Fin 3) hτ
  refine ⟨P, W, h1, h2, hτ, (linear_lipschitz a).mono (le_add_of_nonneg_right (Finset.sum_nonneg fun _ _ => sq_nonneg _)),
    (linear_lipschitz b).mono (le_add_of_nonneg_left (Finset.sum_nonneg fun _ _ => sq_nonneg _)), fun i j h => by show 10 * i < 10 * j; omega, fun j => ?_⟩
  push_cast
  linarith

end Torchdyn
