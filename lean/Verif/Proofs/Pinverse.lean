import Verif.Model.RootCall
import Mathlib.Analysis.Matrix.Spectrum
import Mathlib.LinearAlgebra.Matrix.DotProduct
import Mathlib.Algebra.Order.Star.Real

/-!
The Moore–Penrose inverse exists and is unique.
-/

namespace Torchdyn

set_option linter.unusedSectionVars false

open Matrix

variable {ι ο : Type} [Fintype ι] [Fintype ο]

/-- Symmetric matrices have a symmetric pseudo-inverse that commutes with them. -/
theorem exists_pinverse_symm [DecidableEq ι] (H : Matrix ι ι ℝ) (hH : Hᵀ = H) :
    ∃ P : Matrix ι ι ℝ, Pᵀ = P ∧ H * P * H = H ∧ P * H * P = P ∧ (P * H)ᵀ = P * H := by
  have hH' : H.IsHermitian := by rw [Matrix.IsHermitian, conjTranspose_eq_transpose_of_trivial, hH]
  obtain ⟨U, d, hU, hs⟩ : ∃ (U : Matrix ι ι ℝ) (d : ι → ℝ), Uᵀ * U = 1 ∧ H = U * diagonal d * Uᵀ := by
    refine ⟨hH'.eigenvectorUnitary, hH'.eigenvalues, ?_, ?_⟩
    · have := Unitary.coe_star_mul_self hH'.eigenvectorUnitary
      rwa [star_eq_conjTranspose, conjTranspose_eq_transpose_of_trivial] at this
    · have := hH'.spectral_theorem
      rw [Unitary.conjStarAlgAut_apply] at this
      rw [← conjTranspose_eq_transpose_of_trivial, ← star_eq_conjTranspose]
      exact this
  have key : ∀ x y : ι → ℝ, (U * diagonal x * Uᵀ) * (U * diagonal y * Uᵀ) = U * diagonal (fun i => x i * y i) * Uᵀ := by
    intro x y
    calc (U * diagonal x * Uᵀ) * (U * diagonal y * Uᵀ) = U * diagonal x * (Uᵀ * U) * diagonal y * Uᵀ := by
          simp only [Matrix.mul_assoc]
      _ = U * (diagonal x * diagonal y) * Uᵀ := by rw [hU, Matrix.mul_one]; simp only [Matrix.mul_assoc]
      _ = _ := by rw [diagonal_mul_diagonal]
  have tr : ∀ x : ι → ℝ, (U * diagonal x * Uᵀ)ᵀ = U * diagonal x * Uᵀ := by
    intro x
    simp [transpose_mul, Matrix.mul_assoc]
  refine ⟨U * diagonal (fun i => (d i)⁻¹) * Uᵀ, tr _, ?_, ?_, ?_⟩
  · rw [hs, key, key]
    congr 3
    funext i
    by_cases h : d i = 0
    · simp [h]
    · field_simp
  · rw [hs, key, key]
    congr 3
    funext i
    by_cases h : d i = 0
    · simp [h]
    · field_simp
  · rw [hs, key, tr]

theorem transpose_mul_self_eq_zero' (B : Matrix ο ι ℝ) (h : Bᵀ * B = 0) : B = 0 := by
  rw [← conjTranspose_eq_transpose_of_trivial] at h
  exact conjTranspose_mul_self_eq_zero.1 h

/-- Every real matrix has a pseudo-inverse. -/
theorem exists_pinverse (M : Matrix ο ι ℝ) : ∃ P, IsPinverse M P := by
  classical
  obtain ⟨Q, q1, q2, q3, q4⟩ := exists_pinverse_symm (Mᵀ * M) (by simp [transpose_mul])
  have hM : M * (Q * (Mᵀ * M)) = M := by
    have h0 : M - M * (Q * (Mᵀ * M)) = 0 := by
      apply transpose_mul_self_eq_zero'
      set H := Mᵀ * M with hH
      have e : (M - M * (Q * H))ᵀ * (M - M * (Q * H)) = (1 - Q * H)ᵀ * (H - H * Q * H) := by
        have : M - M * (Q * H) = M * (1 - Q * H) := by rw [Matrix.mul_sub, Matrix.mul_one]
        rw [this, transpose_mul, Matrix.mul_assoc, ← Matrix.mul_assoc Mᵀ, ← hH, Matrix.mul_sub, Matrix.mul_one,
          ← Matrix.mul_assoc H]
      rw [e, q2, sub_self, Matrix.mul_zero]
    exact (sub_eq_zero.1 h0).symm
  refine ⟨Q * Mᵀ, ?_, ?_, ?_, ?_⟩
  · rw [Matrix.mul_assoc, Matrix.mul_assoc Q, hM]
  · calc Q * Mᵀ * M * (Q * Mᵀ) = Q * (Mᵀ * M) * Q * Mᵀ := by simp only [Matrix.mul_assoc]
      _ = _ := by rw [q3]
  · simp [transpose_mul, q1, Matrix.mul_assoc]
  · rw [Matrix.mul_assoc, q4]

theorem pinverse_spec (M : Matrix ο ι ℝ) : IsPinverse M (pinverse M) := by
  unfold pinverse
  rw [dif_pos (exists_pinverse M)]
  exact (exists_pinverse M).choose_spec

/-- The pseudo-inverse is unique. -/
theorem IsPinverse.unique {M : Matrix ο ι ℝ} {P Q : Matrix ι ο ℝ} (hP : IsPinverse M P) (hQ : IsPinverse M Q) : P = Q := by
  have h1 : M * P = M * Q := by
    calc M * P = (M * P)ᵀ := hP.symm_left.symm
      _ = (M * Q * M * P)ᵀ := by rw [hQ.mpm]
      _ = ((M * Q) * (M * P))ᵀ := by simp only [Matrix.mul_assoc]
      _ = (M * P) * (M * Q) := by rw [transpose_mul, hP.symm_left, hQ.symm_left]
      _ = M * P * M * Q := by simp only [Matrix.mul_assoc]
      _ = M * Q := by rw [hP.mpm]
  have h2 : P * M = Q * M := by
    calc P * M = (P * M)ᵀ := hP.symm_right.symm
      _ = (P * (M * Q * M))ᵀ := by rw [hQ.mpm]
      _ = ((P * M) * (Q * M))ᵀ := by simp only [Matrix.mul_assoc]
      _ = (Q * M) * (P * M) := by rw [transpose_mul, hP.symm_right, hQ.symm_right]
      _ = Q * (M * P * M) := by simp only [Matrix.mul_assoc]
      _ = Q * M := by rw [hP.mpm]
  calc P = P * M * P := hP.pmp.symm
    _ = Q * (M * P) := by rw [h2, Matrix.mul_assoc]
    _ = Q * M * Q := by rw [h1, Matrix.mul_assoc]
    _ = Q := hQ.pmp

/-- The pseudo-inverse of a matrix with a left inverse is a left inverse. -/
theorem pinverse_mul_of_left_inverse [DecidableEq ι] {M : Matrix ο ι ℝ} {B : Matrix ι ο ℝ} (h : B * M = 1) :
    pinverse M * M = 1 := by
  have := congrArg (B * ·) (pinverse_spec M).mpm
  simp only [← Matrix.mul_assoc, h, Matrix.one_mul] at this
  exact this

end Torchdyn
