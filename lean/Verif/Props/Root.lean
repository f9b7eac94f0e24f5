import Verif.Model.Root
import Mathlib.Tactic.Linarith
import Mathlib.Analysis.Calculus.Deriv.Pow
import Mathlib.Analysis.Calculus.Deriv.Add
import Mathlib.Analysis.Calculus.Deriv.Mul
import Mathlib.Tactic.FieldSimp
import Mathlib.Tactic.Positivity
import Mathlib.Tactic.LinearCombination
import Mathlib.Tactic.IntervalCases
import Mathlib.Algebra.BigOperators.Field
import Mathlib.Analysis.Calculus.DerivativeTest

/-!
Properties C47–C49 and C73: root finding.
-/

set_option linter.unusedSectionVars false
set_option linter.unusedSimpArgs false

namespace Torchdyn

variable {β ι ο : Type} [Fintype β] [Fintype ι] [Fintype ο]

/-! ### C49: line searches -/

theorem naiveLoop_spec (phi : ℝ → ℝ) (phi0 : ℝ) (d k : ℕ) (hk : k + d = 6) (fuel : ℕ)
    (hf : d + 1 ≤ fuel) (hprev : ∀ j < k, phi0 < phi ((1 / 10) ^ j)) :
    ∃ n ≤ 6, naiveLoop phi phi0 (1 / 10 ^ 6) (1 / 10) fuel ((1 / 10) ^ k) (phi ((1 / 10) ^ k)) =
        some ((1 / 10) ^ n, phi ((1 / 10) ^ n)) ∧
      (phi ((1 / 10) ^ n) ≤ phi0 ∨ n = 6) ∧ ∀ j < n, phi0 < phi ((1 / 10) ^ j) := by
  induction d generalizing k fuel with
  | zero =>
    obtain ⟨fuel, rfl⟩ : ∃ f, fuel = f + 1 := ⟨fuel - 1, by omega⟩
    have : k = 6 := by omega
    subst this
    refine ⟨6, le_rfl, ?_, Or.inr rfl, hprev⟩
    rw [naiveLoop, if_neg]
    rintro ⟨_, h⟩
    norm_num at h
  | succ d ih =>
    obtain ⟨fuel, rfl⟩ : ∃ f, fuel = f + 1 := ⟨fuel - 1, by omega⟩
    by_cases hphi : phi0 < phi ((1 / 10) ^ k)
    · have hgt : (1 / 10 ^ 6 : ℝ) < (1 / 10) ^ k := by
        have : k ≤ 5 := by omega
        interval_cases k <;> norm_num
      rw [naiveLoop, if_pos ⟨hphi, hgt⟩]
      have e : (1 / 10 : ℝ) * (1 / 10) ^ k = (1 / 10) ^ (k + 1) := by ring
      simp only [e]
      exact ih (k + 1) (by omega) fuel (by omega) (by
        intro j hj
        rcases Nat.lt_succ_iff_lt_or_eq.1 hj with h | rfl
        · exact hprev j h
        · exact hphi)
    · refine ⟨k, by omega, ?_, Or.inl (not_lt.1 hphi), hprev⟩
      rw [naiveLoop, if_neg]
      rintro ⟨h, _⟩
      exact hphi h

/-- **C49 (naive search).** For every objective and reference value the search returns `(0.1^n, phi(0.1^n))`
for the first `n` in `0, 1, …` with `phi(0.1^n) ≤ phi0`, or `n = 6` if there is none below: it tests at most
seven step lengths, the last being `1e-6`. (With binary floats `0.1^6` is slightly above `1e-6` and one more
reduction may happen.) -/
theorem C49_naive (phi : ℝ → ℝ) (phi0 : ℝ) (fuel : ℕ) (hf : 7 ≤ fuel) :
    ∃ n ≤ 6, naiveSearch phi phi0 fuel = some ((1 / 10) ^ n, phi ((1 / 10) ^ n)) ∧
      (phi ((1 / 10) ^ n) ≤ phi0 ∨ n = 6) ∧ ∀ j < n, phi0 < phi ((1 / 10) ^ j) := by
  have := naiveLoop_spec phi phi0 6 0 rfl fuel (by omega) (by simp)
  simpa [naiveSearch] using this

theorem armijoLoop_spec (phi : ℝ → ℝ) (phi0 derphi0 c1 : ℝ) (cubic : ℝ → ℝ → ℝ → ℝ → ℝ) (d : ℕ) :
    ∀ (fuel : ℕ), d + 1 ≤ fuel → ∀ alpha0 alpha1 phiA0 phiA1 : ℝ, alpha1 ≤ 2 ^ d / 10 ^ 2 →
    ∃ r, armijoLoop phi phi0 derphi0 c1 cubic fuel alpha0 alpha1 phiA0 phiA1 = some r ∧
      ((r.2 = phi r.1 ∧ r.2 ≤ phi0 + c1 * r.1 * derphi0) ∨ r.1 = 1 / 10 ^ 2) := by
  induction d with
  | zero =>
    intro fuel hf alpha0 alpha1 phiA0 phiA1 h
    obtain ⟨fuel, rfl⟩ : ∃ f, fuel = f + 1 := ⟨fuel - 1, by omega⟩
    rw [armijoLoop, if_neg (by simpa using h)]
    exact ⟨_, rfl, Or.inr rfl⟩
  | succ d ih =>
    intro fuel hf alpha0 alpha1 phiA0 phiA1 h
    obtain ⟨fuel, rfl⟩ : ∃ f, fuel = f + 1 := ⟨fuel - 1, by omega⟩
    by_cases h1 : 1 / 10 ^ 2 < alpha1
    · rw [armijoLoop, if_pos h1]
      simp only
      by_cases h2 : phi (cubic alpha0 alpha1 phiA0 phiA1) ≤
          phi0 + c1 * cubic alpha0 alpha1 phiA0 phiA1 * derphi0
      · rw [if_pos h2]
        exact ⟨_, rfl, Or.inl ⟨rfl, h2⟩⟩
      · rw [if_neg h2]
        have hpos : 0 < alpha1 := lt_trans (by norm_num) h1
        generalize cubic alpha0 alpha1 phiA0 phiA1 = alpha2
        have hc : alpha1 / 2 < alpha1 - alpha2 ∨ 1 - alpha2 / alpha1 < 96 / 100 := by
          rcases lt_or_ge alpha2 (alpha1 / 2) with h | h
          · left
            linarith
          · right
            have : 1 / 2 ≤ alpha2 / alpha1 := by
              rw [le_div_iff₀ hpos]
              linarith
            linarith
        rw [if_pos hc]
        refine ih fuel (by omega) _ _ _ _ ?_
        rw [pow_succ] at h
        linarith
    · rw [armijoLoop, if_neg h1]
      exact ⟨_, rfl, Or.inr rfl⟩

/-- **C49 (Armijo search).** For every nonnegative objective, and whatever the interpolation formula
computes, the search ends after at most six rounds of its loop, and returns `(alpha, phi(alpha))` with
`phi(alpha) ≤ phi0 + c1 * alpha * s`, or the fallback `alpha = 0.01`. The slope `s` is the code's guess
`-phi(1)`.

Missing: the inequality with the true slope `phi'(0)`, which is not guaranteed
(`C49_true_slope_refuted`). -/
theorem C49_armijo_partial (phi : ℝ → ℝ) (phi0 : ℝ) (h1 : 0 ≤ phi 1)
    (cubic : ℝ → ℝ → ℝ → ℝ → ℝ → ℝ → ℝ) (fuel : ℕ) (hf : 7 ≤ fuel) :
    ∃ alpha p, armijoSearch phi phi0 cubic fuel = some (alpha, p) ∧
      ((p = phi alpha ∧ p ≤ phi0 + 1 / 10 ^ 4 * alpha * -phi 1) ∨ alpha = 1 / 10 ^ 2) := by
  unfold armijoSearch
  simp only
  by_cases h : phi 1 < phi0 + 1 / 10 ^ 4 * 1 * -phi 1
  · rw [if_pos h]
    exact ⟨_, _, rfl, Or.inl ⟨rfl, h.le⟩⟩
  · rw [if_neg h]
    obtain ⟨r, h2, h3⟩ := armijoLoop_spec phi phi0 (-phi 1) (1 / 10 ^ 4) (cubic phi0 (-phi 1)) 6 fuel
      (by omega) 1 (- -phi 1 * 1 ^ 2 / 2 / (phi 1 - phi0 - -phi 1 * 1)) (phi 1)
      (phi (- -phi 1 * 1 ^ 2 / 2 / (phi 1 - phi0 - -phi 1 * 1))) (by
        rcases eq_or_lt_of_le h1 with h0 | h0
        · rw [← h0]
          norm_num
        · have hd : 0 < phi 1 - phi0 - -phi 1 * 1 := by linarith
          rw [div_le_iff₀ hd]
          linarith)
    exact ⟨r.1, r.2, h2, h3⟩

/-- **C49 (the searchers of the code).** Both searches, applied to a residual `g`, a point and a direction,
always return. -/
theorem C49_searches_return (search : SearchMethod) (g : Batch β ι → Batch β ο) (geval : Batch β ο)
    (dz z : Batch β ι) (alpha : ℝ) (fuel : ℕ) (hf : 7 ≤ fuel) :
    ∃ a, searchAlpha search g geval dz z alpha fuel = some a := by
  cases search with
  | none => exact ⟨alpha, rfl⟩
  | naive =>
    obtain ⟨n, _, h, _⟩ := C49_naive (lsPhi g dz z) (safeNorm geval ^ 2) fuel hf
    exact ⟨_, by rw [searchAlpha, h]; rfl⟩
  | armijo =>
    obtain ⟨a, p, h, _⟩ := C49_armijo_partial (lsPhi g dz z) (safeNorm geval ^ 2)
      (by unfold lsPhi; positivity) cubicMin fuel hf
    exact ⟨_, by rw [searchAlpha, h]; rfl⟩

/-- **C49**, the interpolation of the Armijo search: let `p` be the cubic with value `phi0` and slope `d` at `0` through
`(alpha0, phiA0)` and `(alpha1, phiA1)`. If `p` is a proper cubic with two stationary points, the next step length is the one at which
`p` has its local minimum. -/
theorem C49_cubic (phi0 d alpha0 alpha1 phiA0 phiA1 a b : ℝ) (h0 : alpha0 ≠ 0) (h1 : alpha1 ≠ 0) (h01 : alpha0 ≠ alpha1)
    (hp0 : phi0 + d * alpha0 + b * alpha0 ^ 2 + a * alpha0 ^ 3 = phiA0)
    (hp1 : phi0 + d * alpha1 + b * alpha1 ^ 2 + a * alpha1 ^ 3 = phiA1) (ha : a ≠ 0) (hD : 0 < b ^ 2 - 3 * a * d) :
    IsLocalMin (fun x => phi0 + d * x + b * x ^ 2 + a * x ^ 3) (cubicMin phi0 d alpha0 alpha1 phiA0 phiA1) ∧
    ∀ x, IsLocalMin (fun x => phi0 + d * x + b * x ^ 2 + a * x ^ 3) x →
      x = cubicMin phi0 d alpha0 alpha1 phiA0 phiA1 := by
  have hne : alpha1 - alpha0 ≠ 0 := sub_ne_zero.2 (Ne.symm h01)
  have hf : alpha0 ^ 2 * alpha1 ^ 2 * (alpha1 - alpha0) ≠ 0 :=
    mul_ne_zero (mul_ne_zero (pow_ne_zero 2 h0) (pow_ne_zero 2 h1)) hne
  have hA : (alpha0 ^ 2 * (phiA1 - phi0 - d * alpha1) - alpha1 ^ 2 * (phiA0 - phi0 - d * alpha0)) /
      (alpha0 ^ 2 * alpha1 ^ 2 * (alpha1 - alpha0)) = a := by
    rw [div_eq_iff hf, ← hp0, ← hp1]
    ring
  have hB : (-alpha0 ^ 3 * (phiA1 - phi0 - d * alpha1) + alpha1 ^ 3 * (phiA0 - phi0 - d * alpha0)) /
      (alpha0 ^ 2 * alpha1 ^ 2 * (alpha1 - alpha0)) = b := by
    rw [div_eq_iff hf, ← hp0, ← hp1]
    ring
  have hc : cubicMin phi0 d alpha0 alpha1 phiA0 phiA1 = (-b + Real.sqrt (b ^ 2 - 3 * a * d)) / (3 * a) := by
    simp only [cubicMin, hA, hB, abs_of_pos hD]
  rw [hc]
  clear hc hA hB hf hp0 hp1
  obtain ⟨s, hs, hss⟩ : ∃ s, 0 < s ∧ s * s = b ^ 2 - 3 * a * d := ⟨_, Real.sqrt_pos.2 hD, Real.mul_self_sqrt hD.le⟩
  have hsq : Real.sqrt (b ^ 2 - 3 * a * d) = s := by rw [← hss]; exact Real.sqrt_mul_self hs.le
  rw [hsq]
  have hder : ∀ x : ℝ, HasDerivAt (fun x => phi0 + d * x + b * x ^ 2 + a * x ^ 3) (d + 2 * b * x + 3 * a * x ^ 2) x := by
    intro x
    have := ((((hasDerivAt_id x).const_mul d).const_add phi0).add ((hasDerivAt_pow 2 x).const_mul b)).add
      ((hasDerivAt_pow 3 x).const_mul a)
    refine (this.congr_deriv (by simp; ring)).congr_of_eventuallyEq (Filter.Eventually.of_forall fun y => ?_)
    simp
  have hder2 : ∀ x : ℝ, HasDerivAt (fun x => d + 2 * b * x + 3 * a * x ^ 2) (2 * b + 6 * a * x) x := by
    intro x
    have := ((((hasDerivAt_id x).const_mul (2 * b)).const_add d)).add ((hasDerivAt_pow 2 x).const_mul (3 * a))
    refine (this.congr_deriv (by simp; ring)).congr_of_eventuallyEq (Filter.Eventually.of_forall fun y => ?_)
    simp
  have hd1 : deriv (fun x => phi0 + d * x + b * x ^ 2 + a * x ^ 3) = fun x => d + 2 * b * x + 3 * a * x ^ 2 :=
    funext fun x => (hder x).deriv
  constructor
  · refine isLocalMin_of_deriv_deriv_pos ?_ ?_ (hder _).continuousAt
    · rw [hd1, (hder2 _).deriv]
      have : 2 * b + 6 * a * ((-b + s) / (3 * a)) = 2 * s := by field_simp; ring
      rw [this]
      linarith
    · rw [hd1]
      show d + 2 * b * ((-b + s) / (3 * a)) + 3 * a * ((-b + s) / (3 * a)) ^ 2 = 0
      field_simp
      linear_combination hss
  · intro x hx
    have h0' : d + 2 * b * x + 3 * a * x ^ 2 = 0 := hx.hasDerivAt_eq_zero (hder x)
    rw [eq_div_iff (mul_ne_zero three_ne_zero ha)]
    have hprod : (x * (3 * a) + b - s) * (x * (3 * a) + b + s) = 0 := by
      linear_combination 3 * a * h0' - hss
    rcases mul_eq_zero.1 hprod with h | h
    · linarith
    · exfalso
      have hneg : deriv (deriv (fun x => phi0 + d * x + b * x ^ 2 + a * x ^ 3)) x < 0 := by
        rw [hd1, (hder2 x).deriv]
        have : 2 * b + 6 * a * x = -2 * s := by linear_combination 2 * h
        rw [this]
        linarith
      have hmax := isLocalMax_of_deriv_deriv_neg hneg (by rw [hd1]; exact h0') (hder x).continuousAt
      have hconst : (fun x => phi0 + d * x + b * x ^ 2 + a * x ^ 3) =ᶠ[nhds x] fun _ => phi0 + d * x + b * x ^ 2 + a * x ^ 3 := by
        filter_upwards [hx, hmax] with y h1 h2
        exact le_antisymm h2 h1
      have hz : deriv (fun x => phi0 + d * x + b * x ^ 2 + a * x ^ 3) =ᶠ[nhds x] fun _ => 0 := by
        have := hconst.deriv
        simpa using this
      have := hz.deriv_eq
      rw [this] at hneg
      simp at hneg

/-- Non-vacuity: the cubic `1 - 3 x + x ^ 3` through `(1, -1)` and `(2, 3)` has its minimum at `1`. -/
example : cubicMin 1 (-3) 1 2 (-1) 3 = 1 := by
  have := (C49_cubic 1 (-3) 1 2 (-1) 3 1 0 one_ne_zero two_ne_zero (by norm_num) (by norm_num) (by norm_num) one_ne_zero
    (by norm_num)).1
  have hs : Real.sqrt 9 = 3 := by rw [show (9 : ℝ) = 3 ^ 2 by norm_num]; exact Real.sqrt_sq (by norm_num)
  simp only [cubicMin]
  norm_num [hs]

/-- The one-dimensional residual `g(z) = z` of the examples. -/
def idResidual : Batch Unit Unit → Batch Unit Unit := fun z => z

theorem safeNorm_unit (v : Batch Unit Unit) : safeNorm v ^ 2 = v () () ^ 2 := by
  simp [safeNorm, Real.sq_sqrt (sq_nonneg _), sq_abs]

theorem lsPhi_id (dz z : Batch Unit Unit) (a : ℝ) : lsPhi idResidual dz z a = (z () () + a * dz () ()) ^ 2 := by
  rw [lsPhi, safeNorm_unit]
  rfl

/-- **C49 (refutation of the Armijo inequality).** For `g(z) = z` at `z = 1` with the direction `-1.9999`,
the search accepts `alpha = 1`, although the objective `(1 - 1.9999 a)²`, whose slope at `0` is `-3.9998`,
violates the sufficient decrease condition with `c1 = 1e-4` there. -/
theorem C49_true_slope_refuted :
    armijoSearch (lsPhi idResidual (fun _ _ => -19999 / 10000) (fun _ _ => 1))
      (safeNorm (idResidual fun _ _ => 1) ^ 2) cubicMin 7 =
      some (1, lsPhi idResidual (fun _ _ => -19999 / 10000) (fun _ _ => 1) 1) ∧
    HasDerivAt (lsPhi idResidual (fun _ _ => -19999 / 10000) (fun _ _ => 1)) (-39998 / 10000) 0 ∧
    safeNorm (idResidual fun _ _ => (1 : ℝ)) ^ 2 + 1 / 10 ^ 4 * 1 * (-39998 / 10000) <
      lsPhi idResidual (fun _ _ => -19999 / 10000) (fun _ _ => 1) 1 := by
  refine ⟨?_, ?_, ?_⟩
  · unfold armijoSearch
    simp only [lsPhi_id, safeNorm_unit, idResidual]
    rw [if_pos (by norm_num)]
  · have e : lsPhi idResidual (fun _ _ => -19999 / 10000) (fun _ _ => 1) =
        fun a => (1 + a * (-19999 / 10000)) ^ 2 := by
      funext a
      rw [lsPhi_id]
    rw [e]
    have h := (((hasDerivAt_id (0 : ℝ)).mul_const (-19999 / 10000)).const_add 1).pow 2
    have e2 : ((2 : ℕ) : ℝ) * (1 + id 0 * (-19999 / 10000)) ^ (2 - 1) * (1 * (-19999 / 10000)) =
        (-39998 / 10000 : ℝ) := by
      norm_num
    rw [← e2]
    exact h
  · simp only [lsPhi_id, safeNorm_unit, idResidual]
    norm_num

/-! ### C48: Broyden updates -/

/-- **C48 (secant equation, `broyden`).** After the update the mismatch `J Δg - Δz` is the previous one
times `ε / (ε + Δzᵀ J Δg)`, for each sample where the denominator is not zero; in particular the secant
equation holds exactly without the regulariser. -/
theorem C48_broyden_secant (ε : ℝ) (Δg : Batch β ο) (Δz : Batch β ι) (J : BatchMat β ι ο) (b : β)
    (hden : (∑ i, ∑ o, Δz b i * J b i o * Δg b o) + ε ≠ 0) (i : ι) :
    (∑ o, broydenFullUpdate ε Δg Δz J b i o * Δg b o) - Δz b i =
      ((∑ o, J b i o * Δg b o) - Δz b i) *
        (ε / ((∑ i, ∑ o, Δz b i * J b i o * Δg b o) + ε)) := by
  simp only [broydenFullUpdate, add_mul, Finset.sum_add_distrib]
  have h1 : ∀ c : ℝ, ∑ o, c * (∑ i, Δz b i * J b i o) * Δg b o =
      c * ∑ i, ∑ o, Δz b i * J b i o * Δg b o := by
    intro c
    rw [Finset.sum_comm, Finset.mul_sum, Finset.sum_congr rfl]
    · intro o _
      rw [mul_assoc, Finset.sum_mul, Finset.mul_sum]
  simp only [h1]
  generalize (∑ i, ∑ o, Δz b i * J b i o * Δg b o) = s at hden ⊢
  generalize (∑ o, J b i o * Δg b o) = p
  field_simp
  ring

/-- **C48 (unchanged directions, `broyden`).** A direction `w` with `Δzᵀ J w = 0` is mapped as before. -/
theorem C48_broyden_orthogonal (ε : ℝ) (Δg : Batch β ο) (Δz : Batch β ι) (J : BatchMat β ι ο) (b : β)
    (w : ο → ℝ) (hw : ∑ i, ∑ o, Δz b i * J b i o * w o = 0) (i : ι) :
    ∑ o, broydenFullUpdate ε Δg Δz J b i o * w o = ∑ o, J b i o * w o := by
  simp only [broydenFullUpdate, add_mul, Finset.sum_add_distrib]
  have h1 : ∀ c : ℝ, ∑ o, c * (∑ i, Δz b i * J b i o) * w o =
      c * ∑ i, ∑ o, Δz b i * J b i o * w o := by
    intro c
    rw [Finset.sum_comm, Finset.mul_sum, Finset.sum_congr rfl]
    · intro o _
      rw [mul_assoc, Finset.sum_mul, Finset.mul_sum]
  rw [h1, hw, mul_zero, add_zero]

/-- **C48 (secant equation, `broyden_fast`).** The mismatch is multiplied by `tol / (tol + |Δg|²)`; the
denominator is positive for every positive `tol`. -/
theorem C48_broyden_fast_secant (tol : ℝ) (Δg : Batch β ο) (Δz : Batch β ι) (J : BatchMat β ι ο) (b : β)
    (hden : (∑ o, Δg b o ^ 2) + tol ≠ 0) (i : ι) :
    (∑ o, broydenBadUpdate tol Δg Δz J b i o * Δg b o) - Δz b i =
      ((∑ o, J b i o * Δg b o) - Δz b i) * (tol / ((∑ o, Δg b o ^ 2) + tol)) := by
  simp only [broydenBadUpdate, add_mul, Finset.sum_add_distrib]
  have h1 : ∀ c d : ℝ, ∑ o, c * Δg b o / d * Δg b o = c / d * ∑ o, Δg b o ^ 2 := by
    intro c d
    rw [Finset.mul_sum]
    refine Finset.sum_congr rfl fun o _ => ?_
    ring
  simp only [h1]
  generalize (∑ o, Δg b o ^ 2) = s at hden ⊢
  generalize (∑ o, J b i o * Δg b o) = p
  field_simp
  ring

/-- With the regulariser of the code the denominator is positive, and the mismatch shrinks. -/
theorem C48_broyden_fast_contracts (tol : ℝ) (htol : 0 < tol) (Δg : Batch β ο) (Δz : Batch β ι)
    (J : BatchMat β ι ο) (b : β) (i : ι) :
    |(∑ o, broydenBadUpdate tol Δg Δz J b i o * Δg b o) - Δz b i| ≤
      |(∑ o, J b i o * Δg b o) - Δz b i| := by
  have hs : 0 ≤ ∑ o, Δg b o ^ 2 := Finset.sum_nonneg fun o _ => sq_nonneg _
  rw [C48_broyden_fast_secant tol Δg Δz J b (by positivity) i, abs_mul]
  refine mul_le_of_le_one_right (abs_nonneg _) ?_
  rw [abs_of_nonneg (by positivity), div_le_one (by positivity)]
  linarith

/-- **C48 (unchanged directions, `broyden_fast`).** A direction orthogonal to `Δg` is mapped as before. -/
theorem C48_broyden_fast_orthogonal (tol : ℝ) (Δg : Batch β ο) (Δz : Batch β ι) (J : BatchMat β ι ο) (b : β)
    (w : ο → ℝ) (hw : ∑ o, Δg b o * w o = 0) (i : ι) :
    ∑ o, broydenBadUpdate tol Δg Δz J b i o * w o = ∑ o, J b i o * w o := by
  simp only [broydenBadUpdate, add_mul, Finset.sum_add_distrib]
  have h1 : ∀ c d : ℝ, ∑ o, c * Δg b o / d * w o = c / d * ∑ o, Δg b o * w o := by
    intro c d
    rw [Finset.mul_sum]
    refine Finset.sum_congr rfl fun o _ => ?_
    ring
  rw [h1, hw, mul_zero, add_zero]

/-- Non-vacuity: a `1 × 1` update with denominator `2 + ε`, exact secant equation for `ε = 0`. -/
example : (∑ o : Unit, broydenFullUpdate (β := Unit) (ι := Unit) 0 (fun _ _ => 2) (fun _ _ => 1)
    (fun _ _ _ => 1) () () o * 2) - 1 = 0 := by
  have := C48_broyden_secant (β := Unit) (ι := Unit) (ο := Unit) 0 (fun _ _ => 2) (fun _ _ => 1)
    (fun _ _ _ => 1) () (by norm_num) ()
  rw [this]
  norm_num

/-! ### C47: `root_find` -/

/-- The tolerance test at a point `z` with direction `dz`, relative to the residual norms `F`. -/
def WithinTolerances (cfg : RootCfg) (g : Batch β ι → Batch β ο) (F : β → ℝ) (z dz : Batch β ι) : Prop :=
  ∀ b, Real.sqrt (∑ o, g z b o ^ 2) ≤ cfg.fTol ∧ Real.sqrt (∑ o, g z b o ^ 2) / cfg.fRtol ≤ F b ∧
    Real.sqrt (∑ i, dz b i ^ 2) ≤ cfg.xTol ∧
    Real.sqrt (∑ i, dz b i ^ 2) / cfg.xRtol ≤ Real.sqrt (∑ i, z b i ^ 2)

theorem termCheck_iff (cfg : RootCfg) (g : Batch β ι → Batch β ο) (f0 : Option (β → ℝ)) (z dz : Batch β ι) :
    ((termCheck cfg.fTol cfg.fRtol cfg.xTol cfg.xRtol f0 (g z) z dz).2 = true ↔
      WithinTolerances cfg g (f0.getD (rowNorm (g z))) z dz) ∧
    (termCheck cfg.fTol cfg.fRtol cfg.xTol cfg.xRtol f0 (g z) z dz).1 = f0.getD (rowNorm (g z)) := by
  refine ⟨?_, rfl⟩
  simp only [termCheck, decide_eq_true_eq, WithinTolerances]
  constructor
  · rintro ⟨⟨h1, h2⟩, h3, h4⟩ b
    exact ⟨h1 b, h2 b, h3 b, h4 b⟩
  · intro h
    exact ⟨⟨fun b => (h b).1, fun b => (h b).2.1⟩, fun b => (h b).2.2.1, fun b => (h b).2.2.2⟩

/-- The two implemented methods. -/
def IsBroyden (method : RootMethod) : Prop := method = .broyden ∨ method = .broydenFast

/-- The update performed by a method. -/
noncomputable def updateOf (method : RootMethod) : Batch β ο → Batch β ι → BatchMat β ι ο → BatchMat β ι ο :=
  match method with
  | .broydenFast => broydenBadUpdate (1 / 10 ^ 6)
  | _ => broydenFullUpdate (1 / 10 ^ 6)

theorem rootStep_ok {method : RootMethod} (hm : IsBroyden method) (g : Batch β ι → Batch β ο) (z0 : Batch β ι)
    (J : BatchMat β ι ο) (gv : Batch β ο) (alpha : ℝ) :
    rootStep method g z0 J gv alpha = .ok (broydenStep (updateOf method) g z0 J gv alpha) := by
  rcases hm with rfl | rfl <;> rfl

/-- One iteration of the loop. -/
theorem rootLoop_succ {cfg : RootCfg} {method : RootMethod} {search : SearchMethod}
    {g : Batch β ι → Batch β ο} {fuel : ℕ} (hm : IsBroyden method) (hf : 7 ≤ fuel) (left : ℕ)
    (s : RootState β ι ο) :
    ∃ s1 : RootState β ι ο,
      s1.iteration = s.iteration + 1 ∧
      s1.dz = (fun b i => ∑ o, s.geval b o * s.Jinv b i o) ∧
      s1.z = (fun b i => s.z b i - s.alpha * s1.dz b i) ∧
      s1.geval = g s1.z ∧
      s1.Jinv = updateOf method (fun b o => s1.geval b o - s.geval b o) (fun b i => s1.z b i - s.z b i) s.Jinv ∧
      searchAlpha search g s1.geval s1.dz s1.z s.alpha fuel = some s1.alpha ∧
      s1.f0Norm = some (s.f0Norm.getD (rowNorm (g s1.z))) ∧
      (s1.terminated = true ↔
        WithinTolerances cfg g (s.f0Norm.getD (rowNorm (g s1.z))) s1.z s1.dz) ∧
      rootLoop cfg method search g fuel (left + 1) s =
        if s1.terminated then .ok (some s1) else rootLoop cfg method search g fuel left s1 := by
  set r := broydenStep (updateOf method) g s.z s.Jinv s.geval s.alpha with hr
  obtain ⟨a, ha⟩ := C49_searches_return search g r.2.2.1 r.2.1 r.1 s.alpha fuel hf
  have hgz : r.2.2.1 = g r.1 := rfl
  refine ⟨⟨s.iteration + 1, r.1, r.2.1, r.2.2.1, r.2.2.2, a,
    some (termCheck cfg.fTol cfg.fRtol cfg.xTol cfg.xRtol s.f0Norm r.2.2.1 r.1 r.2.1).1,
    (termCheck cfg.fTol cfg.fRtol cfg.xTol cfg.xRtol s.f0Norm r.2.2.1 r.1 r.2.1).2⟩,
    rfl, rfl, rfl, rfl, rfl, ha, ?_, ?_, ?_⟩
  · exact congrArg some (termCheck_iff cfg g s.f0Norm r.1 r.2.1).2
  · exact (termCheck_iff cfg g s.f0Norm r.1 r.2.1).1
  · rw [rootLoop, rootStep_ok hm, ← hr]
    simp only [bind, Except.bind, ha, pure, Except.pure]

/-- The loop, once the reference norms are known. -/
theorem rootLoop_spec {cfg : RootCfg} {method : RootMethod} {search : SearchMethod}
    {g : Batch β ι → Batch β ο} {fuel : ℕ} (hm : IsBroyden method) (hf : 7 ≤ fuel) (F : β → ℝ) (left : ℕ) :
    ∀ s : RootState β ι ο, s.f0Norm = some F → s.terminated = false → s.geval = g s.z →
    ∃ s', rootLoop cfg method search g fuel left s = .ok (some s') ∧ s'.geval = g s'.z ∧
      s'.iteration ≤ s.iteration + left ∧
      (s'.terminated = false → s'.iteration = s.iteration + left) ∧
      (s'.terminated = true → WithinTolerances cfg g F s'.z s'.dz) := by
  induction left with
  | zero =>
    intro s hF ht hg
    exact ⟨s, rfl, hg, le_rfl, fun _ => rfl, (fun h => by rw [ht] at h; cases h)⟩
  | succ left ih =>
    intro s hF ht hg
    obtain ⟨s1, h1, h2, h3, h4, h5, h6, h7, h8, h9⟩ :=
      rootLoop_succ (cfg := cfg) (search := search) (g := g) hm hf left s
    rw [hF, Option.getD_some] at h7 h8
    rw [h9]
    by_cases hs : s1.terminated = true
    · rw [if_pos hs]
      exact ⟨s1, rfl, h4, by omega, (fun h => by rw [hs] at h; cases h), h8.1⟩
    · rw [if_neg hs]
      have hs' : s1.terminated = false := by simpa using hs
      obtain ⟨s', k1, k2, k3, k4, k5⟩ := ih s1 h7 hs' h4
      exact ⟨s', k1, k2, by omega, fun h => by rw [k4 h]; omega, k5⟩

theorem rootFind_names {method search : String} {p : RootMethod} {q : SearchMethod}
    (hp : (method, p) ∈ rootSolverDict) (hq : (search, q) ∈ searchMethods) (cfg : RootCfg)
    (g : Batch β ι → Batch β ο) (J0 : BatchMat β ι ο) (z : Batch β ι) (alpha : ℝ) (fuel : ℕ) :
    rootFind cfg method search g J0 z alpha fuel = rootLoop cfg p q g fuel (cfg.maxiters + 1)
      ⟨0, z, fun _ _ => 0, g z, J0, alpha, none, false⟩ := by
  have h1 : rootSolverDict.find? (fun r => r.1 == method) = some (method, p) := by
    simp only [rootSolverDict, List.mem_cons, Prod.mk.injEq, List.not_mem_nil, or_false] at hp
    rcases hp with ⟨rfl, rfl⟩ | ⟨rfl, rfl⟩ | ⟨rfl, rfl⟩ | ⟨rfl, rfl⟩ <;> decide
  have h2 : searchMethods.find? (fun r => r.1 == search) = some (search, q) := by
    simp only [searchMethods, List.mem_cons, Prod.mk.injEq, List.not_mem_nil, or_false] at hq
    rcases hq with ⟨rfl, rfl⟩ | ⟨rfl, rfl⟩ | ⟨rfl, rfl⟩ <;> decide
  simp only [rootFind, h1, h2]

/-- **C47.** `root_find` with either Broyden method and any line search always returns, after at most
`maxiters + 1` iterations; if it stops with the termination condition set, the residual at the returned
point and the last direction satisfy all four tolerances, the relative residual tolerance being with respect
to the residual norms `F` after the first iteration; otherwise it has performed exactly `maxiters + 1`
iterations. -/
theorem C47_certified {method search : String} {p : RootMethod} {q : SearchMethod}
    (hp : (method, p) ∈ rootSolverDict) (hq : (search, q) ∈ searchMethods) (hm : IsBroyden p)
    (cfg : RootCfg) (g : Batch β ι → Batch β ο) (J0 : BatchMat β ι ο) (z : Batch β ι) (alpha : ℝ)
    (fuel : ℕ) (hf : 7 ≤ fuel) :
    ∃ s, rootFind cfg method search g J0 z alpha fuel = .ok (some s) ∧
      s.geval = g s.z ∧ 1 ≤ s.iteration ∧ s.iteration ≤ cfg.maxiters + 1 ∧
      (s.terminated = false → s.iteration = cfg.maxiters + 1) ∧
      (s.terminated = true → WithinTolerances cfg g
        (fun b => Real.sqrt (∑ o, g (fun b i => z b i - alpha * ∑ o, g z b o * J0 b i o) b o ^ 2))
        s.z s.dz) := by
  rw [rootFind_names hp hq]
  obtain ⟨s1, h1, h2, h3, h4, h5, h6, h7, h8, h9⟩ :=
    rootLoop_succ (cfg := cfg) (search := q) (g := g) hm hf cfg.maxiters
      ⟨0, z, fun _ _ => 0, g z, J0, alpha, none, false⟩
  have hz : s1.z = fun b i => z b i - alpha * ∑ o, g z b o * J0 b i o := by
    rw [h3, h2]
  simp only [Option.getD_none] at h7 h8
  have hF : rowNorm (g s1.z) = fun b =>
      Real.sqrt (∑ o, g (fun b i => z b i - alpha * ∑ o, g z b o * J0 b i o) b o ^ 2) := by
    rw [hz]
    rfl
  rw [hF] at h7 h8
  simp only [zero_add] at h1
  rw [h9]
  by_cases hs : s1.terminated = true
  · rw [if_pos hs]
    refine ⟨s1, rfl, h4, by omega, by omega, ?_, h8.1⟩
    rw [hs]
    intro h
    cases h
  · rw [if_neg hs]
    have hs' : s1.terminated = false := by simpa using hs
    obtain ⟨s', k1, k2, k3, k4, k5⟩ := rootLoop_spec (cfg := cfg) (search := q) hm hf _ cfg.maxiters s1 h7
      hs' h4
    -- the iteration counter never decreases
    have hge : 1 ≤ s'.iteration := by
      by_cases ht : s'.terminated = false
      · rw [k4 ht, h1]
        omega
      · have mono : ∀ (left : ℕ) (s s' : RootState β ι ο),
            rootLoop cfg p q g fuel left s = .ok (some s') → s.iteration ≤ s'.iteration := by
          intro left
          induction left with
          | zero =>
            intro s s' h
            cases h
            exact le_rfl
          | succ left ih =>
            intro s s' h
            obtain ⟨r1, e1, _, _, _, _, _, _, _, e9⟩ :=
              rootLoop_succ (cfg := cfg) (search := q) (g := g) hm hf left s
            rw [e9] at h
            by_cases ht : r1.terminated = true
            · rw [if_pos ht] at h
              cases h
              omega
            · rw [if_neg ht] at h
              have := ih r1 s' h
              omega
        have := mono _ _ _ k1
        omega
    exact ⟨s', k1, k2, hge, by omega, fun h => by rw [k4 h, h1]; omega, k5⟩

/-- **C47 (error branches).** Unknown method or search names raise `AssertionError`; `newton` and `chord`
are listed but raise `NotImplementedError`. -/
theorem C47_errors (cfg : RootCfg) (g : Batch β ι → Batch β ο) (J0 : BatchMat β ι ο) (z : Batch β ι)
    (alpha : ℝ) (fuel : ℕ) :
    (∀ method search, method ∉ ["broyden_fast", "broyden", "newton", "chord"] →
      rootFind cfg method search g J0 z alpha fuel = .error .assertionError) ∧
    (∀ method search, search ∉ ["naive", "armijo", "none"] →
      rootFind cfg method search g J0 z alpha fuel = .error .assertionError) ∧
    (∀ method search, method ∈ ["newton", "chord"] → search ∈ ["naive", "armijo", "none"] →
      rootFind cfg method search g J0 z alpha fuel = .error .notImplementedError) := by
  refine ⟨?_, ?_, ?_⟩
  · intro method search h
    have : rootSolverDict.find? (fun r => r.1 == method) = none := by
      rw [List.find?_eq_none]
      intro r hr
      simp only [rootSolverDict, List.mem_cons, List.not_mem_nil, or_false] at hr
      simp only [List.mem_cons, List.not_mem_nil, or_false, not_or] at h
      rcases hr with rfl | rfl | rfl | rfl <;> simp <;> exact fun hh => by simp_all
    simp only [rootFind, this]
  · intro method search h
    have : searchMethods.find? (fun r => r.1 == search) = none := by
      rw [List.find?_eq_none]
      intro r hr
      simp only [searchMethods, List.mem_cons, List.not_mem_nil, or_false] at hr
      simp only [List.mem_cons, List.not_mem_nil, or_false, not_or] at h
      rcases hr with rfl | rfl | rfl <;> simp <;> exact fun hh => by simp_all
    simp only [rootFind, this]
    cases rootSolverDict.find? (fun r => r.1 == method) <;> rfl
  · intro method search h1 h2
    simp only [List.mem_cons, List.not_mem_nil, or_false] at h1 h2
    obtain ⟨q, hq⟩ : ∃ q, (search, q) ∈ searchMethods := by
      rcases h2 with rfl | rfl | rfl <;> simp [searchMethods]
    rcases h1 with rfl | rfl
    · rw [rootFind_names (p := .newton) (by simp [rootSolverDict]) hq]
      rfl
    · rw [rootFind_names (p := .chord) (by simp [rootSolverDict]) hq]
      rfl

/-! ### C73: affine residuals -/

/-- `g` is affine with linear part `A` (per sample) and `J` is the inverse of `A`. -/
structure AffineWith (A : β → ο → ι → ℝ) (c : Batch β ο) (J : BatchMat β ι ο)
    (g : Batch β ι → Batch β ο) : Prop where
  affine : ∀ z b o, g z b o = (∑ i, A b o i * z b i) + c b o
  right_inv : ∀ b (v : ο → ℝ) o, ∑ i, A b o i * ∑ o', v o' * J b i o' = v o

theorem AffineWith.step {A : β → ο → ι → ℝ} {c : Batch β ο} {J : BatchMat β ι ο}
    {g : Batch β ι → Batch β ο} (h : AffineWith A c J g) (z : Batch β ι) (alpha : ℝ) (b : β) (o : ο) :
    g (fun b i => z b i - alpha * ∑ o, g z b o * J b i o) b o = (1 - alpha) * g z b o := by
  rw [h.affine]
  simp only [mul_sub, Finset.sum_sub_distrib]
  have e : ∑ i, A b o i * (alpha * ∑ o, g z b o * J b i o) =
      alpha * ∑ i, A b o i * ∑ o', g z b o' * J b i o' := by
    rw [Finset.mul_sum]
    refine Finset.sum_congr rfl fun i _ => ?_
    ring
  rw [e, h.right_inv b (g z b) o, h.affine]
  ring

/-- A step that satisfies the secant equation leaves the inverse Jacobian unchanged. -/
theorem updateOf_fixed (method : RootMethod) (Δg : Batch β ο) (Δz : Batch β ι) (J : BatchMat β ι ο)
    (h : ∀ b i, Δz b i = ∑ o, J b i o * Δg b o) : updateOf method Δg Δz J = J := by
  have h0 : ∀ b i, Δz b i - ∑ o, J b i o * Δg b o = 0 := fun b i => by rw [h b i, sub_self]
  cases method <;>
  · funext b i o
    simp [updateOf, broydenFullUpdate, broydenBadUpdate, h0]

/-- **C73 (without line search).** For an affine residual with the exact inverse Jacobian, any step length
`alpha` and either method, `root_find(..., search_method='none')` returns a point whose residual is exactly
`(1 - alpha)^n` times the initial one, `n` being the number of iterations performed, and the inverse
Jacobian is never changed.

Missing: the default line search, which stalls (`C73_default_search_refuted`). -/
theorem C73_linear_rate_partial {method : String} {p : RootMethod} (hp : (method, p) ∈ rootSolverDict)
    (hm : IsBroyden p) {A : β → ο → ι → ℝ} {c : Batch β ο} {J0 : BatchMat β ι ο}
    {g : Batch β ι → Batch β ο} (h : AffineWith A c J0 g) (cfg : RootCfg) (z : Batch β ι) (alpha : ℝ)
    (fuel : ℕ) (hf : 7 ≤ fuel) :
    ∃ s, rootFind cfg method "none" g J0 z alpha fuel = .ok (some s) ∧ s.Jinv = J0 ∧
      ∀ b o, g s.z b o = (1 - alpha) ^ s.iteration * g z b o := by
  rw [rootFind_names hp (q := .none) (by simp [searchMethods])]
  have key : ∀ (left : ℕ) (s : RootState β ι ο), s.Jinv = J0 → s.alpha = alpha → s.geval = g s.z →
      (∀ b o, g s.z b o = (1 - alpha) ^ s.iteration * g z b o) →
      ∃ s', rootLoop cfg p .none g fuel left s = .ok (some s') ∧ s'.Jinv = J0 ∧
        ∀ b o, g s'.z b o = (1 - alpha) ^ s'.iteration * g z b o := by
    intro left
    induction left with
    | zero =>
      intro s h1 _ _ h4
      exact ⟨s, rfl, h1, h4⟩
    | succ left ih =>
      intro s e1 e2 e3 e4
      obtain ⟨s1, h1, h2, h3, h4, h5, h6, h7, h8, h9⟩ :=
        rootLoop_succ (cfg := cfg) (search := .none) (g := g) hm hf left s
      have hz : s1.z = fun b i => s.z b i - alpha * ∑ o, g s.z b o * J0 b i o := by
        rw [h3, h2, e1, e2, e3]
      have hres : ∀ b o, g s1.z b o = (1 - alpha) * g s.z b o := by
        intro b o
        rw [hz]
        exact h.step s.z alpha b o
      have hJ : s1.Jinv = J0 := by
        rw [h5, e1]
        apply updateOf_fixed
        intro b i
        rw [h4, e3, hz]
        have : ∀ o, g (fun b i => s.z b i - alpha * ∑ o, g s.z b o * J0 b i o) b o - g s.z b o =
            -alpha * g s.z b o := fun o => by rw [h.step s.z alpha b o]; ring
        simp only [this]
        rw [sub_sub_cancel_left, ← neg_mul, Finset.mul_sum]
        refine Finset.sum_congr rfl fun o _ => ?_
        ring
      have ha : s1.alpha = alpha := by
        have : some s.alpha = some s1.alpha := h6
        rw [← Option.some.inj this, e2]
      have hpow : ∀ b o, g s1.z b o = (1 - alpha) ^ s1.iteration * g z b o := by
        intro b o
        rw [hres, e4, h1, pow_succ]
        ring
      rw [h9]
      by_cases ht : s1.terminated = true
      · rw [if_pos ht]
        exact ⟨s1, rfl, hJ, hpow⟩
      · rw [if_neg ht]
        exact ih s1 hJ ha h4 hpow
  exact key _ _ rfl rfl rfl (by simp)

/-- The default tolerances and iteration limit of `root_find` (root.py:259-260). -/
noncomputable def defaultRootCfg : RootCfg := ⟨1 / 10 ^ 2, 1 / 10, 1 / 10 ^ 2, 1, 100⟩

/-- **C73 (refutation).** `root_find` with all its default settings on `g(z) = z`, started at `z = 1` with
the exact inverse Jacobian, returns after 101 iterations a point greater than `4/5`: the line search tests
the points `z + alpha dz` although the solver moves to `z - alpha dz`, so that it always falls back to
the smallest step length. -/
theorem C73_default_search_refuted (fuel : ℕ) (hf : 7 ≤ fuel) :
    ∃ s, rootFind defaultRootCfg "broyden" "naive" idResidual (fun _ _ _ => 1) (fun _ _ => 1) (1 / 10) fuel =
      .ok (some s) ∧ s.terminated = false ∧ s.iteration = 101 ∧ 4 / 5 < s.z () () := by
  rw [rootFind_names (p := .broyden) (q := .naive) (by simp [rootSolverDict]) (by simp [searchMethods])]
  have hm : IsBroyden .broyden := Or.inl rfl
  -- the naive search at a positive point with a positive direction
  have hsearch : ∀ (z dz : Batch Unit Unit) (a : ℝ), 0 < z () () → 0 < dz () () →
      searchAlpha .naive idResidual (idResidual z) dz z a fuel = some ((1 / 10) ^ 6) := by
    intro z dz a hz hdz
    obtain ⟨n, hn, e, h1, h2⟩ := C49_naive (lsPhi idResidual dz z) (safeNorm (idResidual z) ^ 2) fuel hf
    have : ∀ k : ℕ, safeNorm (idResidual z) ^ 2 < lsPhi idResidual dz z ((1 / 10) ^ k) := by
      intro k
      rw [lsPhi_id, safeNorm_unit]
      have : 0 < (1 / 10 : ℝ) ^ k * dz () () := by positivity
      exact pow_lt_pow_left₀ (by simpa [idResidual] using this) hz.le (by norm_num)
    rcases h1 with h1 | rfl
    · exact absurd h1 (not_le.2 (this n))
    · rw [searchAlpha, e]
      rfl
  have hJ : ∀ Δz : Batch Unit Unit, updateOf .broyden Δz Δz (fun _ _ _ => (1 : ℝ)) = fun _ _ _ => 1 := by
    intro Δz
    apply updateOf_fixed
    intro b i
    simp
  have nterm : ∀ (F : Unit → ℝ) (z dz : Batch Unit Unit), 4 / 5 < z () () →
      ¬ WithinTolerances defaultRootCfg idResidual F z dz := by
    intro F z dz hz h
    have := (h ()).1
    simp only [Finset.univ_unique, Finset.sum_singleton, idResidual] at this
    rw [Real.sqrt_sq (by simpa using (by linarith : (0:ℝ) ≤ z () ()))] at this
    have h2 : z () () ≤ 1 / 10 ^ 2 := by simpa [defaultRootCfg] using this
    linarith [show (1 / 10 ^ 2 : ℝ) < 4 / 5 by norm_num]
  have key : ∀ (left k : ℕ) (s : RootState Unit Unit Unit), k + left = 100 → s.Jinv = (fun _ _ _ => 1) →
      s.alpha = (1 / 10) ^ 6 → s.geval = idResidual s.z → s.terminated = false →
      9 / 10 - k * (1 / 10 ^ 6) ≤ s.z () () → s.z () () ≤ 1 → s.iteration = k + 1 →
      ∃ s', rootLoop defaultRootCfg .broyden .naive idResidual fuel left s = .ok (some s') ∧
        s'.terminated = false ∧ s'.iteration = 101 ∧ 4 / 5 < s'.z () () := by
    intro left
    induction left with
    | zero =>
      intro k s hk _ _ _ e4 e5 _ e7
      have : k = 100 := by omega
      subst this
      refine ⟨s, rfl, e4, e7, ?_⟩
      norm_num at e5
      linarith
    | succ left ih =>
      intro k s hk e1 e2 e3 e4 e5 e6 e7
      obtain ⟨s1, h1, h2, h3, h4, h5, h6, h7, h8, h9⟩ :=
        rootLoop_succ (cfg := defaultRootCfg) (search := .naive) (g := idResidual) hm hf left s
      have hkr : (k : ℝ) ≤ 99 := by exact_mod_cast (by omega : k ≤ 99)
      have hz0 : (89 / 100 : ℝ) < s.z () () := by linarith
      have hdz : s1.dz () () = s.z () () := by
        rw [h2, e1, e3]
        simp [idResidual]
      have hz : s1.z () () = s.z () () - (1 / 10) ^ 6 * s.z () () := by
        rw [h3, e2]
        simp only [hdz]
      have hz1 : 4 / 5 < s1.z () () := by
        rw [hz]
        linarith
      have ht : s1.terminated = false := by
        have := mt h8.1 (nterm _ _ _ hz1)
        simpa using this
      rw [h9, if_neg (by simp [ht])]
      refine ih (k + 1) s1 (by omega) ?_ ?_ h4 ht ?_ ?_ (by omega)
      · rw [h5, h4, e3, e1]
        exact hJ _
      · have := hsearch s1.z s1.dz s.alpha (by linarith) (by rw [hdz]; linarith)
        rw [← h4, h6] at this
        exact Option.some.inj this
      · rw [hz]
        push_cast
        linarith
      · rw [hz]
        linarith
  obtain ⟨s1, h1, h2, h3, h4, h5, h6, h7, h8, h9⟩ :=
    rootLoop_succ (cfg := defaultRootCfg) (search := .naive) (g := idResidual) hm hf
      defaultRootCfg.maxiters ⟨0, fun _ _ => 1, fun _ _ => 0, idResidual (fun _ _ => 1),
        (fun _ _ _ => 1), 1 / 10, none, false⟩
  have hdz : s1.dz () () = 1 := by
    rw [h2]
    simp [idResidual]
  have hz : s1.z () () = 9 / 10 := by
    rw [h3]
    simp only [hdz]
    norm_num
  have ht : s1.terminated = false := by
    have := mt h8.1 (nterm _ _ _ (by rw [hz]; norm_num))
    simpa using this
  rw [h9, if_neg (by simp [ht])]
  refine key 100 0 s1 rfl ?_ ?_ h4 ht ?_ ?_ h1
  · rw [h5, h4]
    exact hJ _
  · have := hsearch s1.z s1.dz (1 / 10) (by rw [hz]; norm_num) (by rw [hdz]; norm_num)
    rw [← h4, h6] at this
    exact Option.some.inj this
  · rw [hz]
    norm_num
  · rw [hz]
    norm_num

/-- Non-vacuity of `AffineWith`: `g(z) = 2 z - 3` with inverse Jacobian `1/2`. -/
example : AffineWith (β := Unit) (ι := Unit) (ο := Unit) (fun _ _ _ => 2) (fun _ _ => -3)
    (fun _ _ _ => 1 / 2) (fun z b i => 2 * z b i - 3) :=
  ⟨fun z b o => by simp [sub_eq_add_neg], fun b v o => by simp; ring⟩

end Torchdyn
