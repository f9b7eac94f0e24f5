import Mathlib.Analysis.InnerProductSpace.Basic
import Mathlib.Analysis.InnerProductSpace.Continuous
import Mathlib.Analysis.InnerProductSpace.Dual
import Mathlib.Analysis.Calculus.MeanValue
import Mathlib.Tactic.Module

/-!
Broyden's methods in a Hilbert space: what one step does to the distance to a root and to the error of the (inverse)
Jacobian. The denominators are regularised as in /repo/torchdyn/numerics/solvers/root.py:51-57, 77-82.
-/

namespace Torchdyn

open Metric

variable {E : Type} [NormedAddCommGroup E] [InnerProductSpace ℝ E]

local notation "⟪" x ", " y "⟫" => inner ℝ x y

/-- `zs` is a root of `G` with invertible derivative; the derivative exists within `ρ` of `zs`, where it differs from the
one at `zs` by at most `γ` times the distance. -/
structure RegularRoot (G : E → E) (G' : E → E →L[ℝ] E) (A : E →L[ℝ] E) (zs : E) (ρ γ : ℝ) : Prop where
  root : G zs = 0
  deriv : ∀ z ∈ closedBall zs ρ, HasFDerivAt G (G' z) z
  lip : ∀ z ∈ closedBall zs ρ, ‖G' z - G' zs‖ ≤ γ * ‖z - zs‖
  left_inv : ∀ x, A (G' zs x) = x
  right_inv : ∀ x, G' zs (A x) = x

variable {G : E → E} {G' : E → E →L[ℝ] E} {A : E →L[ℝ] E} {zs : E} {ρ γ : ℝ}

theorem RegularRoot.linear (h : RegularRoot G G' A zs ρ γ) (hγ : 0 ≤ γ) {r : ℝ} (hr : r ≤ ρ) {z w : E} (hz : ‖z - zs‖ ≤ r)
    (hw : ‖w - zs‖ ≤ r) : ‖G z - G w - G' zs (z - w)‖ ≤ γ * r * ‖z - w‖ := by
  have hsub : closedBall zs r ⊆ closedBall zs ρ := closedBall_subset_closedBall hr
  refine (convex_closedBall zs r).norm_image_sub_le_of_norm_hasFDerivWithin_le' (f' := G')
    (fun x hx => (h.deriv x (hsub hx)).hasFDerivWithinAt) (fun x hx => (h.lip x (hsub hx)).trans ?_)
    (by rwa [mem_closedBall, dist_eq_norm]) (by rwa [mem_closedBall, dist_eq_norm])
  rw [mem_closedBall, dist_eq_norm] at hx
  exact mul_le_mul_of_nonneg_left hx hγ

theorem RegularRoot.residual (h : RegularRoot G G' A zs ρ γ) (hγ : 0 ≤ γ) {z : E} (hz : ‖z - zs‖ ≤ ρ) :
    ‖G z - G' zs (z - zs)‖ ≤ γ * ‖z - zs‖ * ‖z - zs‖ := by
  have := h.linear hγ hz le_rfl (w := zs) (by simp)
  rwa [h.root, sub_zero] at this

/-- Removing a part of the component along `u` does not increase the norm. -/
theorem norm_sub_component_le (u x : E) {c : ℝ} (h0 : 0 ≤ c) (h1 : c * ‖u‖ ^ 2 ≤ 1) : ‖x - (c * ⟪u, x⟫) • u‖ ≤ ‖x‖ := by
  have h : ‖x - (c * ⟪u, x⟫) • u‖ ^ 2 ≤ ‖x‖ ^ 2 := by
    rw [norm_sub_sq_real, inner_smul_right, norm_smul, mul_pow, Real.norm_eq_abs, sq_abs, real_inner_comm u x]
    have : c * ⟪u, x⟫ ^ 2 * (c * ‖u‖ ^ 2) ≤ c * ⟪u, x⟫ ^ 2 * 1 := mul_le_mul_of_nonneg_left h1 (by positivity)
    nlinarith [mul_nonneg h0 (sq_nonneg ⟪u, x⟫)]
  exact (abs_le_of_sq_le_sq h (norm_nonneg _) |> le_trans (le_abs_self _))

/-- The rank-one update `D + w uᵀ / d` of an operator. -/
noncomputable def rankOneUpdate (D : E →L[ℝ] E) (w u : E) (d : ℝ) : E →L[ℝ] E := D + (innerSL ℝ u).smulRight (d⁻¹ • w)

theorem rankOneUpdate_apply (D : E →L[ℝ] E) (w u : E) (d : ℝ) (x : E) :
    rankOneUpdate D w u d x = D x + (⟪u, x⟫ / d) • w := by
  simp only [rankOneUpdate, add_apply, ContinuousLinearMap.smulRight_apply, innerSL_apply_apply, smul_smul]
  rfl

/-- Bounded deterioration: correcting `D` towards a secant equation that `M` satisfies up to `κ ‖u‖` moves it away from `M`
by at most `κ`. -/
theorem bounded_deterioration (D M : E →L[ℝ] E) (u y : E) {ε κ : ℝ} (hε : 0 < ε) (hκ0 : 0 ≤ κ) (hκ : ‖y - M u‖ ≤ κ * ‖u‖) :
    ‖rankOneUpdate D (y - D u) u (‖u‖ ^ 2 + ε) - M‖ ≤ ‖D - M‖ + κ := by
  have hd : 0 < ‖u‖ ^ 2 + ε := by positivity
  refine ContinuousLinearMap.opNorm_le_bound _ (by positivity) fun x => ?_
  rw [sub_apply, rankOneUpdate_apply]
  set c := (‖u‖ ^ 2 + ε)⁻¹ with hc
  have hc0 : 0 ≤ c := by positivity
  have hc1 : c * ‖u‖ ^ 2 ≤ 1 := by
    rw [hc, inv_mul_le_iff₀ hd]
    linarith
  have e : D x + (⟪u, x⟫ / (‖u‖ ^ 2 + ε)) • (y - D u) - M x =
      (D - M) (x - (c * ⟪u, x⟫) • u) + (c * ⟪u, x⟫) • (y - M u) := by
    rw [div_eq_inv_mul, ← hc]
    simp only [sub_apply, map_sub, map_smul]
    module
  rw [e]
  refine (norm_add_le _ _).trans ?_
  have h1 : ‖(D - M) (x - (c * ⟪u, x⟫) • u)‖ ≤ ‖D - M‖ * ‖x‖ :=
    ((D - M).le_opNorm _).trans (mul_le_mul_of_nonneg_left (norm_sub_component_le u x hc0 hc1) (norm_nonneg _))
  have h2 : ‖(c * ⟪u, x⟫) • (y - M u)‖ ≤ κ * ‖x‖ := by
    rw [norm_smul, norm_mul, Real.norm_of_nonneg hc0]
    have h3 : ‖⟪u, x⟫‖ ≤ ‖u‖ * ‖x‖ := norm_inner_le_norm u x
    calc c * ‖⟪u, x⟫‖ * ‖y - M u‖ ≤ c * (‖u‖ * ‖x‖) * (κ * ‖u‖) := by gcongr
      _ = (c * ‖u‖ ^ 2) * (κ * ‖x‖) := by ring
      _ ≤ 1 * (κ * ‖x‖) := mul_le_mul_of_nonneg_right hc1 (by positivity)
      _ = κ * ‖x‖ := one_mul _
  nlinarith

/-- The update of the inverse Jacobian by `BroydenFull` (root.py:51-57): `J + (u - J y) (uᵀ J) / (uᵀ J y + ε)`. -/
noncomputable def fullUpdate (ε : ℝ) (J : E →L[ℝ] E) (u y : E) : E →L[ℝ] E :=
  J + ((innerSL ℝ u).comp J).smulRight ((⟪u, J y⟫ + ε)⁻¹ • (u - J y))

theorem fullUpdate_apply (ε : ℝ) (J : E →L[ℝ] E) (u y x : E) :
    fullUpdate ε J u y x = J x + (⟪u, J x⟫ / (⟪u, J y⟫ + ε)) • (u - J y) := by
  simp only [fullUpdate, add_apply, ContinuousLinearMap.smulRight_apply, ContinuousLinearMap.comp_apply,
    innerSL_apply_apply, smul_smul]
  rfl

/-- Sherman-Morrison: the updated `J` is the inverse of Broyden's update of the Jacobian `B`, whose denominator is
`‖u‖² + ε`. -/
theorem fullUpdate_inverse {ε : ℝ} (hε : 0 < ε) {J B : E →L[ℝ] E} (hJB : ∀ x, J (B x) = x) (hBJ : ∀ x, B (J x) = x) (u y : E)
    (hd : ⟪u, J y⟫ + ε ≠ 0) :
    (∀ x, fullUpdate ε J u y (rankOneUpdate B (y - B u) u (‖u‖ ^ 2 + ε) x) = x) ∧
      ∀ x, rankOneUpdate B (y - B u) u (‖u‖ ^ 2 + ε) (fullUpdate ε J u y x) = x := by
  have hn : ‖u‖ ^ 2 + ε ≠ 0 := by positivity
  have huu : ⟪u, u⟫ = ‖u‖ ^ 2 := real_inner_self_eq_norm_sq u
  constructor
  · intro x
    rw [fullUpdate_apply, rankOneUpdate_apply]
    simp only [map_add, map_smul, map_sub, hJB, inner_add_right, inner_smul_right, inner_sub_right, huu]
    set p := ⟪u, J y⟫
    set q := ⟪u, x⟫
    have e : (q + q / (‖u‖ ^ 2 + ε) * (p - ‖u‖ ^ 2)) / (p + ε) = q / (‖u‖ ^ 2 + ε) := by
      field_simp
      ring
    rw [e]
    module
  · intro x
    rw [rankOneUpdate_apply, fullUpdate_apply]
    simp only [map_add, map_smul, map_sub, hBJ, inner_add_right, inner_smul_right, inner_sub_right, huu]
    set p := ⟪u, J y⟫
    set q := ⟪u, J x⟫
    have e : (q + q / (p + ε) * (‖u‖ ^ 2 - p)) / (‖u‖ ^ 2 + ε) = q / (p + ε) := by
      field_simp
      ring
    rw [e]
    module

/-- An inverse of an operator near `G' zs` is bounded. -/
theorem inverse_bound (h : RegularRoot G G' A zs ρ γ) {J B : E →L[ℝ] E} (hBJ : ∀ x, B (J x) = x)
    (hs : ‖A‖ * ‖B - G' zs‖ ≤ 1 / 4) (x : E) : ‖J x‖ ≤ 4 / 3 * ‖A‖ * ‖x‖ := by
  have e : J x = A x - A ((B - G' zs) (J x)) := by
    rw [sub_apply, map_sub, hBJ, h.left_inv]
    abel
  have h1 : ‖J x‖ ≤ ‖A‖ * ‖x‖ + ‖A‖ * (‖B - G' zs‖ * ‖J x‖) := by
    nth_rw 1 [e]
    refine (norm_sub_le _ _).trans (add_le_add (A.le_opNorm x) ((A.le_opNorm _).trans ?_))
    exact mul_le_mul_of_nonneg_left ((B - G' zs).le_opNorm _) (norm_nonneg _)
  have h2 := mul_le_mul_of_nonneg_right hs (norm_nonneg (J x))
  nlinarith

/-- One step of Broyden's method near a regular root. -/
theorem full_step (h : RegularRoot G G' A zs ρ γ) (hγ : 0 ≤ γ) {ε α : ℝ} (hε : 0 < ε) (hα0 : 0 ≤ α) (hα1 : α ≤ 1)
    {J B : E →L[ℝ] E} (hJB : ∀ x, J (B x) = x) (hBJ : ∀ x, B (J x) = x) {z : E} (hz : ‖z - zs‖ ≤ ρ)
    (hs : ‖A‖ * (‖B - G' zs‖ + γ * ‖z - zs‖) ≤ 1 / 4) {z' : E} (hz' : z' = z - α • J (G z)) :
    ‖z' - zs‖ ≤ (1 - α / 2) * ‖z - zs‖ ∧
      ∃ B' : E →L[ℝ] E, (∀ x, fullUpdate ε J (z' - z) (G z' - G z) (B' x) = x) ∧
        (∀ x, B' (fullUpdate ε J (z' - z) (G z' - G z) x) = x) ∧ ‖B' - G' zs‖ ≤ ‖B - G' zs‖ + γ * ‖z - zs‖ := by
  set e := ‖z - zs‖ with he
  set η := ‖B - G' zs‖ with hη
  have he0 : 0 ≤ e := norm_nonneg _
  have hη0 : 0 ≤ η := norm_nonneg _
  have ha0 : 0 ≤ ‖A‖ := norm_nonneg _
  have hJ := inverse_bound h hBJ (by nlinarith [mul_nonneg ha0 (mul_nonneg hγ he0)])
  -- the distance to the root
  have hr : ‖B (z - zs) - G z‖ ≤ (η + γ * e) * e := by
    have e1 : B (z - zs) - G z = (B - G' zs) (z - zs) - (G z - G' zs (z - zs)) := by
      rw [sub_apply]
      abel
    rw [e1]
    refine (norm_sub_le _ _).trans ?_
    have h1 := (B - G' zs).le_opNorm (z - zs)
    have h2 := h.residual hγ hz
    rw [← he, ← hη] at *
    linarith
  have hcon : ‖z' - zs‖ ≤ (1 - α / 2) * e := by
    have e1 : z' - zs = (1 - α) • (z - zs) + α • J (B (z - zs) - G z) := by
      rw [map_sub, hJB, hz']
      module
    rw [e1]
    refine (norm_add_le _ _).trans ?_
    rw [norm_smul, norm_smul, Real.norm_of_nonneg hα0, Real.norm_of_nonneg (sub_nonneg.2 hα1), ← he]
    have h1 := hJ (B (z - zs) - G z)
    have h2 : 4 / 3 * ‖A‖ * ‖B (z - zs) - G z‖ ≤ 4 / 3 * ‖A‖ * ((η + γ * e) * e) :=
      mul_le_mul_of_nonneg_left hr (by positivity)
    have h3 := mul_le_mul_of_nonneg_right hs he0
    have h4 : ‖J (B (z - zs) - G z)‖ ≤ e / 2 := by nlinarith
    nlinarith [mul_le_mul_of_nonneg_left h4 hα0]
  refine ⟨hcon, ?_⟩
  set u := z' - z with hu
  set y := G z' - G z with hy
  have hle : ‖z' - zs‖ ≤ e := hcon.trans (by nlinarith)
  have hsec : ‖y - G' zs u‖ ≤ γ * e * ‖u‖ := h.linear hγ hz hle le_rfl
  have hsecB : ‖B u - y‖ ≤ (η + γ * e) * ‖u‖ := by
    have e1 : B u - y = (B - G' zs) u - (y - G' zs u) := by
      rw [sub_apply]
      abel
    rw [e1]
    refine (norm_sub_le _ _).trans ?_
    have h1 := (B - G' zs).le_opNorm u
    rw [← hη] at h1
    linarith
  have hden : ⟪u, J y⟫ + ε ≠ 0 := by
    have e1 : ⟪u, J y⟫ = ‖u‖ ^ 2 - ⟪u, J (B u - y)⟫ := by
      rw [map_sub J (B u) y, hJB, inner_sub_right, real_inner_self_eq_norm_sq]
      ring
    have h1 : ⟪u, J (B u - y)⟫ ≤ ‖u‖ * ‖J (B u - y)‖ := real_inner_le_norm _ _
    have h2 := hJ (B u - y)
    have h3 : 4 / 3 * ‖A‖ * ‖B u - y‖ ≤ 4 / 3 * ‖A‖ * ((η + γ * e) * ‖u‖) :=
      mul_le_mul_of_nonneg_left hsecB (by positivity)
    have h4 := mul_le_mul_of_nonneg_right hs (norm_nonneg u)
    have h5 : ‖J (B u - y)‖ ≤ ‖u‖ := by nlinarith [norm_nonneg u]
    have h6 := mul_le_mul_of_nonneg_left h5 (norm_nonneg u)
    have : 0 < ⟪u, J y⟫ + ε := by nlinarith
    exact this.ne'
  obtain ⟨h1, h2⟩ := fullUpdate_inverse hε hJB hBJ u y hden
  exact ⟨_, h1, h2, bounded_deterioration B (G' zs) u y hε (mul_nonneg hγ he0) hsec⟩

/-- One step of `BroydenBad` (root.py:77-82) near a regular root: it updates the inverse Jacobian directly. -/
theorem bad_step (h : RegularRoot G G' A zs ρ γ) (hγ : 0 ≤ γ) {ε α : ℝ} (hε : 0 < ε) (hα0 : 0 ≤ α) (hα1 : α ≤ 1)
    {J : E →L[ℝ] E} {z : E} (hz : ‖z - zs‖ ≤ ρ) (hs1 : ‖A‖ * (γ * ‖z - zs‖) ≤ 1 / 4)
    (hs2 : ‖J - A‖ * (‖G' zs‖ + γ * ‖z - zs‖) ≤ 1 / 4) {z' : E} (hz' : z' = z - α • J (G z)) :
    ‖z' - zs‖ ≤ (1 - α / 2) * ‖z - zs‖ ∧
      ‖rankOneUpdate J ((z' - z) - J (G z' - G z)) (G z' - G z) (‖G z' - G z‖ ^ 2 + ε) - A‖ ≤
        ‖J - A‖ + 2 * ‖A‖ ^ 2 * γ * ‖z - zs‖ := by
  set e := ‖z - zs‖ with he
  have he0 : 0 ≤ e := norm_nonneg _
  have ha0 : 0 ≤ ‖A‖ := norm_nonneg _
  have hres := h.residual hγ hz
  rw [← he] at hres
  have hG : ‖G z‖ ≤ (‖G' zs‖ + γ * e) * e := by
    have h1 := (G' zs).le_opNorm (z - zs)
    have h2 : ‖G z‖ ≤ ‖G z - G' zs (z - zs)‖ + ‖G' zs (z - zs)‖ := by
      simpa using norm_add_le (G z - G' zs (z - zs)) (G' zs (z - zs))
    rw [← he] at h1
    linarith
  have hcon : ‖z' - zs‖ ≤ (1 - α / 2) * e := by
    have e1 : z' - zs = (1 - α) • (z - zs) - α • (A (G z - G' zs (z - zs)) + (J - A) (G z)) := by
      rw [map_sub, h.left_inv, hz', sub_apply]
      module
    rw [e1]
    refine (norm_sub_le _ _).trans ?_
    rw [norm_smul, norm_smul, Real.norm_of_nonneg hα0, Real.norm_of_nonneg (sub_nonneg.2 hα1), ← he]
    have h1 : ‖A (G z - G' zs (z - zs))‖ ≤ ‖A‖ * (γ * e * e) :=
      (A.le_opNorm _).trans (mul_le_mul_of_nonneg_left hres ha0)
    have h2 : ‖(J - A) (G z)‖ ≤ ‖J - A‖ * ((‖G' zs‖ + γ * e) * e) :=
      ((J - A).le_opNorm _).trans (mul_le_mul_of_nonneg_left hG (norm_nonneg _))
    have h3 := mul_le_mul_of_nonneg_right hs1 he0
    have h4 := mul_le_mul_of_nonneg_right hs2 he0
    have h5 : ‖A (G z - G' zs (z - zs)) + (J - A) (G z)‖ ≤ e / 2 := (norm_add_le _ _).trans (by linarith)
    nlinarith [mul_le_mul_of_nonneg_left h5 hα0]
  refine ⟨hcon, ?_⟩
  set u := z' - z with hu
  set y := G z' - G z with hy
  have hle : ‖z' - zs‖ ≤ e := hcon.trans (by nlinarith)
  have hsec : ‖y - G' zs u‖ ≤ γ * e * ‖u‖ := h.linear hγ hz hle le_rfl
  have hau : ‖u - A y‖ ≤ ‖A‖ * (γ * e * ‖u‖) := by
    have e1 : u - A y = -A (y - G' zs u) := by
      rw [map_sub A y, h.left_inv]
      abel
    rw [e1, norm_neg]
    exact (A.le_opNorm _).trans (mul_le_mul_of_nonneg_left hsec ha0)
  have huy : ‖u‖ ≤ 2 * ‖A‖ * ‖y‖ := by
    have h1 : ‖u‖ ≤ ‖u - A y‖ + ‖A y‖ := by simpa using norm_add_le (u - A y) (A y)
    have h2 := A.le_opNorm y
    have h3 := mul_le_mul_of_nonneg_right hs1 (norm_nonneg u)
    nlinarith [norm_nonneg u]
  refine bounded_deterioration J A y u hε (by positivity) (hau.trans ?_)
  calc ‖A‖ * (γ * e * ‖u‖) ≤ ‖A‖ * (γ * e * (2 * ‖A‖ * ‖y‖)) := by gcongr
    _ = 2 * ‖A‖ ^ 2 * γ * e * ‖y‖ := by ring

end Torchdyn
