import Verif.Props.InterpSpline

/-!
Property C141: gradients of losses over all outputs, computed with the interpolated adjoint of sensitivity.py:103-161 (a
natural cubic spline through the states of the forward pass, the same fixed-step solver in both passes).
-/

set_option linter.unusedSectionVars false
set_option linter.unusedSimpArgs false

namespace Torchdyn

open Spec Set
open scoped Topology

variable {X P : Type} [NormedAddCommGroup X] [NormedSpace ℝ X] [FiniteDimensional ℝ X]
  [NormedAddCommGroup P] [NormedSpace ℝ P] [FiniteDimensional ℝ P] {A A' : Type} {f : P → ℝ → X → X}

/-- The cotangents of state and parameters in the state of the full adjoint. -/
def cotOf (S : AdjS X P) : CotS X P := (S.2.1, S.2.2.1)

theorem cotOf_le (S : AdjS X P) : ‖cotOf S‖ ≤ ‖S‖ := by
  have h1 : ‖S.2‖ ≤ ‖S‖ := norm_snd_le S
  have h2 : ‖S.2.2‖ ≤ ‖S.2‖ := norm_snd_le S.2
  have h3 : ‖S.2.1‖ ≤ ‖S.2‖ := norm_fst_le S.2
  have h4 : ‖S.2.2.1‖ ≤ ‖S.2.2‖ := norm_fst_le S.2.2
  unfold cotOf
  rw [Prod.norm_def]
  exact max_le (h3.trans h1) (h4.trans (h2.trans h1))

theorem cotOf_sub (S S' : AdjS X P) : cotOf S - cotOf S' = cotOf (S - S') := rfl

/-- Rate of change of the cotangents, backward in time, when the state is `x`. -/
noncomputable def cotRate (f : P → ℝ → X → X) (θ : P) (dg : Option (ℝ → X → (X →L[ℝ] ℝ))) (t : ℝ) (x : X) (B : CotS X P) :
    CotS X P :=
  (B.1.comp (fderiv ℝ (fun x' => f θ t x') x) + lossCot dg t x, B.1.comp (fderiv ℝ (fun θ' => f θ' t x) θ))

theorem interp_cotRate (f : P → ℝ → X → X) (θ : P) (dg : Option (ℝ → X → (X →L[ℝ] ℝ))) (curve : ℝ → X) (t : ℝ)
    (B : CotS X P) : -interpDynamics (smoothAdjoint f θ dg) curve t B = cotRate f θ dg t (curve t) B := by
  rw [interpDynamics_smooth, cotRate, Prod.neg_mk]
  congr 1
  · abel
  · abel

theorem adjoint_cotRate (f : P → ℝ → X → X) (θ : P) (dg : Option (ℝ → X → (X →L[ℝ] ℝ))) (t : ℝ) (S : AdjS X P) :
    cotOf (-adjointDynamics (smoothAdjoint f θ dg) t S) = cotRate f θ dg t S.1 (cotOf S) := by
  rw [adjointDynamics_smooth, cotRate, cotOf, cotOf]
  simp only [Prod.neg_mk, neg_neg]
  congr 1
  abel

/-- Bounds and Lipschitz constants of the field and of the coefficients of the adjoint equation on a bounded set. -/
structure CoefLip (f : P → ℝ → X → X) (θ : P) (dg : Option (ℝ → X → (X →L[ℝ] ℝ))) (R t0 T K : ℝ) : Prop where
  one_le : 1 ≤ K
  vf : ∀ t ∈ Icc t0 T, ∀ x, ‖x‖ ≤ R → ‖f θ t x‖ ≤ K
  dx_le : ∀ t ∈ Icc t0 T, ∀ x, ‖x‖ ≤ R → ‖fderiv ℝ (fun x' => f θ t x') x‖ ≤ K
  dp_le : ∀ t ∈ Icc t0 T, ∀ x, ‖x‖ ≤ R → ‖fderiv ℝ (fun θ' => f θ' t x) θ‖ ≤ K
  dg_le : ∀ t ∈ Icc t0 T, ∀ x, ‖x‖ ≤ R → ‖lossCot dg t x‖ ≤ K
  dx : ∀ t ∈ Icc t0 T, ∀ t' ∈ Icc t0 T, ∀ x x', ‖x‖ ≤ R → ‖x'‖ ≤ R →
    ‖fderiv ℝ (fun x' => f θ t x') x - fderiv ℝ (fun x' => f θ t' x') x'‖ ≤ K * (|t - t'| + ‖x - x'‖)
  dp : ∀ t ∈ Icc t0 T, ∀ t' ∈ Icc t0 T, ∀ x x', ‖x‖ ≤ R → ‖x'‖ ≤ R →
    ‖fderiv ℝ (fun θ' => f θ' t x) θ - fderiv ℝ (fun θ' => f θ' t' x') θ‖ ≤ K * (|t - t'| + ‖x - x'‖)
  dg : ∀ t ∈ Icc t0 T, ∀ t' ∈ Icc t0 T, ∀ x x', ‖x‖ ≤ R → ‖x'‖ ≤ R →
    ‖lossCot dg t x - lossCot dg t' x'‖ ≤ K * (|t - t'| + ‖x - x'‖)

theorem lip_on_bounded {E : Type} [NormedAddCommGroup E] [NormedSpace ℝ E] [FiniteDimensional ℝ E] {g : ℝ × X → E}
    (hg : ContDiff ℝ 1 g) (R t0 T : ℝ) :
    ∃ K : ℝ, (∀ t ∈ Icc t0 T, ∀ x, ‖x‖ ≤ R → ‖g (t, x)‖ ≤ K) ∧ ∀ t ∈ Icc t0 T, ∀ t' ∈ Icc t0 T, ∀ x x', ‖x‖ ≤ R → ‖x'‖ ≤ R →
      ‖g (t, x) - g (t', x')‖ ≤ K * (|t - t'| + ‖x - x'‖) := by
  obtain ⟨G, -, ⟨L, hL0, hL⟩, ⟨B, hB⟩, hFG⟩ := exists_cutoff (n := 1) (by omega) (by exact_mod_cast hg)
    (R := |R| + |t0| + |T| + 1) (by positivity)
  have hag : ∀ t ∈ Icc t0 T, ∀ x, ‖x‖ ≤ R → g (t, x) = G (t, x) := by
    intro t ht x hx
    refine hFG (t, x) ?_
    rw [Prod.norm_def]
    have := neg_abs_le t0
    have := le_abs_self T
    have := abs_nonneg t0
    have := abs_nonneg T
    have := abs_nonneg R
    have := le_abs_self R
    refine max_le ?_ (by simp only; linarith)
    rw [Real.norm_eq_abs, abs_le]
    constructor <;> linarith [ht.1, ht.2]
  refine ⟨max B L, fun t ht x hx => ?_, fun t ht t' ht' x x' hx hx' => ?_⟩
  · rw [hag t ht x hx]
    exact (hB _).trans (le_max_left _ _)
  · rw [hag t ht x hx, hag t' ht' x' hx']
    have h1 : ‖((t, x) : ℝ × X) - (t', x')‖ ≤ |t - t'| + ‖x - x'‖ := by
      rw [Prod.mk_sub_mk, Prod.norm_def]
      exact max_le (le_add_of_nonneg_right (norm_nonneg _)) (le_add_of_nonneg_left (abs_nonneg _))
    refine (hL _ _).trans (mul_le_mul (le_max_right _ _) h1 (norm_nonneg _) (hL0.trans (le_max_right _ _)))

theorem exists_coefLip (hf : ContDiff ℝ 2 fun q : P × ℝ × X => f q.1 q.2.1 q.2.2) (θ : P)
    {dg : Option (ℝ → X → (X →L[ℝ] ℝ))} (hdg : ContDiff ℝ 1 fun p : ℝ × X => lossCot dg p.1 p.2) (R t0 T : ℝ) :
    ∃ K, CoefLip f θ dg R t0 T K := by
  have hd : Differentiable ℝ fun q : P × ℝ × X => f q.1 q.2.1 q.2.2 := hf.differentiable (by simp)
  have hD : ContDiff ℝ 1 (fderiv ℝ fun q : P × ℝ × X => f q.1 q.2.1 q.2.2) := hf.fderiv_right (by norm_num)
  have hin : ContDiff ℝ 1 fun p : ℝ × X => ((θ, p.1, p.2) : P × ℝ × X) := by fun_prop
  have hDp := hD.comp hin
  have h0 : ContDiff ℝ 1 fun p : ℝ × X => f θ p.1 p.2 := (hf.of_le (by norm_num)).comp hin
  have h1 : ContDiff ℝ 1 fun p : ℝ × X => fderiv ℝ (fun x' => f θ p.1 x') p.2 := by
    simp only [partial_x hd]
    exact hDp.clm_comp contDiff_const
  have h2 : ContDiff ℝ 1 fun p : ℝ × X => fderiv ℝ (fun θ' => f θ' p.1 p.2) θ := by
    simp only [partial_p hd]
    exact hDp.clm_comp contDiff_const
  obtain ⟨K0, H0, -⟩ := lip_on_bounded h0 R t0 T
  obtain ⟨K1, H1, H1'⟩ := lip_on_bounded h1 R t0 T
  obtain ⟨K2, H2, H2'⟩ := lip_on_bounded h2 R t0 T
  obtain ⟨K3, H3, H3'⟩ := lip_on_bounded hdg R t0 T
  obtain ⟨K, b, b0, b1, b2, b3⟩ : ∃ K : ℝ, 1 ≤ K ∧ K0 ≤ K ∧ K1 ≤ K ∧ K2 ≤ K ∧ K3 ≤ K :=
    ⟨max 1 (max K0 (max K1 (max K2 K3))), by simp, by simp, by simp, by simp, by simp⟩
  have hm : ∀ {a u v : ℝ} (x : X), a ≤ K → a * (|u - v| + ‖x‖) ≤ K * (|u - v| + ‖x‖) := fun x h =>
    mul_le_mul_of_nonneg_right h (by positivity)
  exact ⟨K, b, fun t ht x hx => (H0 t ht x hx).trans b0, fun t ht x hx => (H1 t ht x hx).trans b1,
    fun t ht x hx => (H2 t ht x hx).trans b2, fun t ht x hx => (H3 t ht x hx).trans b3,
    fun t ht t' ht' x x' hx hx' => (H1' t ht t' ht' x x' hx hx').trans (hm _ b1),
    fun t ht t' ht' x x' hx hx' => (H2' t ht t' ht' x x' hx hx').trans (hm _ b2),
    fun t ht t' ht' x x' hx hx' => (H3' t ht t' ht' x x' hx hx').trans (hm _ b3)⟩

theorem cotRate_le {θ : P} {dg : Option (ℝ → X → (X →L[ℝ] ℝ))} {R t0 T K : ℝ} (hK : CoefLip f θ dg R t0 T K) {t : ℝ}
    (ht : t ∈ Icc t0 T) {x : X} (hx : ‖x‖ ≤ R) (B : CotS X P) : ‖cotRate f θ dg t x B‖ ≤ K * (‖B‖ + 1) := by
  have hK0 : 0 < K := lt_of_lt_of_le one_pos hK.one_le
  have hB : ‖B.1‖ ≤ ‖B‖ := norm_fst_le B
  rw [cotRate, Prod.norm_def]
  refine max_le ?_ ?_
  · refine (norm_add_le _ _).trans ?_
    have h1 := (ContinuousLinearMap.opNorm_comp_le B.1 (fderiv ℝ (fun x' => f θ t x') x)).trans
      (mul_le_mul hB (hK.dx_le t ht x hx) (norm_nonneg _) (norm_nonneg _))
    have h2 := hK.dg_le t ht x hx
    linarith
  · have h1 := (ContinuousLinearMap.opNorm_comp_le B.1 (fderiv ℝ (fun θ' => f θ' t x) θ)).trans
      (mul_le_mul hB (hK.dp_le t ht x hx) (norm_nonneg _) (norm_nonneg _))
    simp only
    linarith

theorem cotRate_lip {θ : P} {dg : Option (ℝ → X → (X →L[ℝ] ℝ))} {R t0 T K : ℝ} (hK : CoefLip f θ dg R t0 T K) {t t' : ℝ}
    (ht : t ∈ Icc t0 T) (ht' : t' ∈ Icc t0 T) {x x' : X} (hx : ‖x‖ ≤ R) (hx' : ‖x'‖ ≤ R) (B B' : CotS X P) :
    ‖cotRate f θ dg t x B - cotRate f θ dg t' x' B'‖ ≤ K * ‖B - B'‖ + K * (‖B'‖ + 1) * (|t - t'| + ‖x - x'‖) := by
  have hK0 : 0 < K := lt_of_lt_of_le one_pos hK.one_le
  have hB : ‖B.1 - B'.1‖ ≤ ‖B - B'‖ := norm_fst_le (B - B')
  have hB' : ‖B'.1‖ ≤ ‖B'‖ := norm_fst_le B'
  have key : ∀ {E : Type} [NormedAddCommGroup E] [NormedSpace ℝ E] (D D' : E →L[ℝ] X), ‖D‖ ≤ K →
      ‖D - D'‖ ≤ K * (|t - t'| + ‖x - x'‖) →
      ‖B.1.comp D - B'.1.comp D'‖ ≤ K * ‖B - B'‖ + K * ‖B'‖ * (|t - t'| + ‖x - x'‖) := by
    intro E _ _ D D' h1 h2
    have e : B.1.comp D - B'.1.comp D' = (B.1 - B'.1).comp D + B'.1.comp (D - D') := by
      ext v
      simp
    rw [e]
    refine (norm_add_le _ _).trans (add_le_add ?_ ?_)
    · refine (ContinuousLinearMap.opNorm_comp_le _ _).trans ?_
      rw [mul_comm]
      exact mul_le_mul h1 hB (norm_nonneg _) hK0.le
    · refine (ContinuousLinearMap.opNorm_comp_le _ _).trans ?_
      calc _ ≤ ‖B'‖ * (K * (|t - t'| + ‖x - x'‖)) := mul_le_mul hB' h2 (norm_nonneg _) (norm_nonneg _)
        _ = _ := by ring
  have a1 := key _ _ (hK.dx_le t ht x hx) (hK.dx t ht t' ht' x x' hx hx')
  have a2 := key _ _ (hK.dp_le t ht x hx) (hK.dp t ht t' ht' x x' hx hx')
  have a3 := hK.dg t ht t' ht' x x' hx hx'
  have h0 : 0 ≤ K * (|t - t'| + ‖x - x'‖) := by positivity
  rw [cotRate, cotRate, Prod.mk_sub_mk, Prod.norm_def]
  refine max_le ?_ ?_
  · simp only
    rw [show ∀ p q r s : X →L[ℝ] ℝ, p + q - (r + s) = (p - r) + (q - s) by intros; abel]
    refine (norm_add_le _ _).trans ?_
    linarith
  · simp only
    linarith

/-- One step of the interpolated adjoint with the update `ψ curve`, along a curve within `η` of `y`, compared with the exact
solution `z` of the adjoint equation along `y`. -/
def InterpStepNear (p : ℕ) (ψ : (ℝ → X) → CotS X P → ℝ → ℝ → CotS X P) (f : P → ℝ → X → X) (θ : P)
    (dg : Option (ℝ → X → (X →L[ℝ] ℝ))) (y : ℝ → X) (R t0 T : ℝ) : Prop :=
  ∃ C L δ, 0 ≤ C ∧ 0 ≤ L ∧ 0 < δ ∧ ∀ (curve : ℝ → X) (η : ℝ), η ≤ 1 → (∀ t ∈ Icc t0 T, ‖curve t - y t‖ ≤ η) →
    ∀ (z : ℝ → AdjS X P) (tLo tHi : ℝ) (B : CotS X P), t0 ≤ tLo → tLo < tHi → tHi ≤ T → tHi - tLo ≤ δ →
    SolvesOn (adjointDynamics (smoothAdjoint f θ dg)) z tLo tHi → (∀ t ∈ Icc tLo tHi, (z t).1 = y t) →
    (∀ t ∈ Icc tLo tHi, ‖z t‖ ≤ R) → ‖B - cotOf (z tHi)‖ ≤ 1 →
    ‖ψ curve B (-tHi) (tHi - tLo) - cotOf (z tLo)‖ ≤
      (1 + L * (tHi - tLo)) * ‖B - cotOf (z tHi)‖ + C * (tHi - tLo) * ((tHi - tLo) ^ p + η)

/-- The stages of a Runge-Kutta step of the interpolated adjoint are close to the first one along the true trajectory. -/
theorem interp_stages {θ : P} {dg : Option (ℝ → X → (X →L[ℝ] ℝ))} {R t0 T K W η : ℝ} (hK : CoefLip f θ dg R t0 T K)
    (hW : 0 ≤ W) {y curve : ℝ → X} (hη : 0 ≤ η) (hcR : ∀ t ∈ Icc t0 T, ‖curve t‖ ≤ R) (hyR : ∀ t ∈ Icc t0 T, ‖y t‖ ≤ R)
    (hc : ∀ t ∈ Icc t0 T, ‖curve t - y t‖ ≤ η) (hy : ∀ t ∈ Icc t0 T, ∀ t' ∈ Icc t0 T, ‖y t - y t'‖ ≤ K * |t - t'|)
    {B : CotS X P} {tHi g : ℝ} (hg : 0 ≤ g) (h1 : t0 ≤ tHi - g) (h2 : tHi ≤ T) (hgW : 2 * W * K * g ≤ 1) :
    ∀ (rows : List (ℝ × List ℝ)), (∀ r ∈ rows, 0 ≤ r.1 ∧ r.1 ≤ 1 ∧ (r.2.map abs).sum ≤ W) →
      ∀ (ks : List (CotS X P)), (∀ k ∈ ks, ‖k‖ ≤ 2 * K * (‖B‖ + 1)) →
      (∀ k ∈ ks, ‖k - cotRate f θ dg tHi (y tHi) B‖ ≤ K * (2 * W * K + 1 + K) * (‖B‖ + 1) * (g + η)) →
      (rkStagesT (fun s B => -interpDynamics (smoothAdjoint f θ dg) curve (-s) B) B (-tHi) g rows ks).length =
          rows.length + ks.length ∧
        ∀ k ∈ rkStagesT (fun s B => -interpDynamics (smoothAdjoint f θ dg) curve (-s) B) B (-tHi) g rows ks,
          ‖k - cotRate f θ dg tHi (y tHi) B‖ ≤ K * (2 * W * K + 1 + K) * (‖B‖ + 1) * (g + η) := by
  have hK0 : 0 < K := lt_of_lt_of_le one_pos hK.one_le
  obtain ⟨N, hN⟩ : ∃ N, ‖B‖ + 1 = N := ⟨_, rfl⟩
  have hN0 : 0 ≤ N := by rw [← hN]; positivity
  rw [hN]
  intro rows
  induction rows with
  | nil => intro _ ks _ hk; exact ⟨by simp [rkStagesT], hk⟩
  | cons r rows ih =>
    intro hr ks hks hk
    obtain ⟨c, row⟩ := r
    have hc' := hr (c, row) (by simp)
    simp only at hc'
    rw [rkStagesT]
    have hcg0 : 0 ≤ c * g := mul_nonneg hc'.1 hg
    have hcg1 : c * g ≤ g := mul_le_of_le_one_left hg hc'.2.1
    have hmem : tHi - c * g ∈ Icc t0 T := ⟨by linarith, by linarith⟩
    have hmemH : tHi ∈ Icc t0 T := ⟨by linarith, h2⟩
    have hst : -interpDynamics (smoothAdjoint f θ dg) curve (-(-tHi + c * g)) (B + g • comb row ks) =
        cotRate f θ dg (tHi - c * g) (curve (tHi - c * g)) (B + g • comb row ks) := by
      rw [show -(-tHi + c * g) = tHi - c * g by ring]
      exact interp_cotRate _ _ _ _ _ _
    have hcomb : ‖g • comb row ks‖ ≤ g * (2 * W * K) * N := by
      rw [norm_smul, Real.norm_of_nonneg hg]
      have := (comb_norm_le (M := 2 * K * N) (by positivity) row ks hks).trans
        (mul_le_mul_of_nonneg_right hc'.2.2 (by positivity))
      have := mul_le_mul_of_nonneg_left this hg
      linarith [this, show g * (W * (2 * K * N)) = g * (2 * W * K) * N by ring]
    have hsmall : g * (2 * W * K) * N ≤ N := by
      refine mul_le_of_le_one_left hN0 ?_
      linarith [hgW, show g * (2 * W * K) = 2 * W * K * g by ring]
    obtain ⟨i1, i2⟩ := ih (fun r hr' => hr r (List.mem_cons_of_mem _ hr'))
      (ks ++ [-interpDynamics (smoothAdjoint f θ dg) curve (-(-tHi + c * g)) (B + g • comb row ks)])
      (by
        intro k hk'
        rcases List.mem_append.1 hk' with hk' | hk'
        · exact hks k hk'
        · rw [List.mem_singleton.1 hk', hst]
          refine (cotRate_le hK hmem (hcR _ hmem) _).trans ?_
          have h5 := norm_add_le B (g • comb row ks)
          have h6 : ‖B + g • comb row ks‖ + 1 ≤ 2 * N := by linarith
          linarith [mul_le_mul_of_nonneg_left h6 hK0.le])
      (by
        intro k hk'
        rcases List.mem_append.1 hk' with hk' | hk'
        · exact hk k hk'
        · rw [List.mem_singleton.1 hk', hst]
          refine (cotRate_lip hK hmem hmemH (hcR _ hmem) (hyR _ hmemH) _ _).trans ?_
          rw [add_sub_cancel_left, hN]
          have e1 : |tHi - c * g - tHi| ≤ g := by
            rw [show tHi - c * g - tHi = -(c * g) by ring, abs_neg, abs_of_nonneg hcg0]
            exact hcg1
          have e2 : ‖curve (tHi - c * g) - y tHi‖ ≤ η + K * g := by
            have h5 := norm_add_le (curve (tHi - c * g) - y (tHi - c * g)) (y (tHi - c * g) - y tHi)
            rw [sub_add_sub_cancel] at h5
            have h6 := hc _ hmem
            have h7 := (hy _ hmem _ hmemH).trans (mul_le_mul_of_nonneg_left e1 hK0.le)
            linarith
          have e3 := mul_le_mul_of_nonneg_left hcomb hK0.le
          have e4 : K * N * (|tHi - c * g - tHi| + ‖curve (tHi - c * g) - y tHi‖) ≤ K * N * (g + (η + K * g)) :=
            mul_le_mul_of_nonneg_left (by linarith) (by positivity)
          have e5 : 0 ≤ K * N * η * (2 * W * K) := by positivity
          have e6 : 0 ≤ K * N * η * K := by positivity
          have e7 : K * (2 * W * K + 1 + K) * N * (g + η) = K * (g * (2 * W * K) * N) + K * N * (g + (η + K * g)) +
              K * N * η * (2 * W * K) + K * N * η * K := by ring
          linarith)
    refine ⟨?_, i2⟩
    rw [i1]
    simp
    omega

/-- The exact solution moves no faster than the bound on the field. -/
theorem solution_lip {θ : P} {dg : Option (ℝ → X → (X →L[ℝ] ℝ))} {R t0 T K : ℝ} (hK : CoefLip f θ dg R t0 T K) {y : ℝ → X}
    (hy : SolvesOn (f θ) y t0 T) (hyR : ∀ t ∈ Icc t0 T, ‖y t‖ ≤ R) :
    ∀ t ∈ Icc t0 T, ∀ t' ∈ Icc t0 T, ‖y t - y t'‖ ≤ K * |t - t'| := by
  intro t ht t' ht'
  have := (convex_Icc t0 T).norm_image_sub_le_of_norm_hasDerivWithin_le (f := y) (C := K) (fun s hs => hy s hs)
    (fun s hs => hK.vf s hs _ (hyR s hs)) ht' ht
  simpa [Real.norm_eq_abs] using this

/-- A full adjoint step from the true state and given cotangents. -/
theorem adjoint_step_cot {θ : P} {dg : Option (ℝ → X → (X →L[ℝ] ℝ))} {R t0 T : ℝ} {p : ℕ} {ψ : AdjS X P → ℝ → ℝ → AdjS X P}
    (H : OneStepNear p ψ (fun s w => -adjointDynamics (smoothAdjoint f θ dg) (-s) w) R (-T) (-t0)) :
    ∃ C L δ, 0 ≤ C ∧ 0 ≤ L ∧ 0 < δ ∧ ∀ (z : ℝ → AdjS X P) (tLo tHi : ℝ) (B : CotS X P), t0 ≤ tLo → tLo < tHi → tHi ≤ T →
    tHi - tLo ≤ δ → SolvesOn (adjointDynamics (smoothAdjoint f θ dg)) z tLo tHi →
    (∀ t ∈ Icc tLo tHi, ‖z t‖ ≤ R) → ‖B - cotOf (z tHi)‖ ≤ 1 →
    ‖cotOf (ψ ((z tHi).1, B.1, B.2, (z tHi).2.2.2) (-tHi) (tHi - tLo)) - cotOf (z tLo)‖ ≤
      (1 + L * (tHi - tLo)) * ‖B - cotOf (z tHi)‖ + C * (tHi - tLo) ^ (p + 1) := by
  obtain ⟨C, L, δ, hC, hL, hδ, H⟩ := H
  refine ⟨C, L, δ, hC, hL, hδ, ?_⟩
  intro z tLo tHi B h1 h2 h3 h4 hz hzR hB
  have e : ‖(((z tHi).1, B.1, B.2, (z tHi).2.2.2) : AdjS X P) - z tHi‖ = ‖B - cotOf (z tHi)‖ := by
    obtain ⟨z1, z2, z3, z4⟩ := z tHi
    obtain ⟨B1, B2⟩ := B
    simp only [cotOf, Prod.mk_sub_mk, Prod.norm_def, sub_self, norm_zero]
    rw [max_eq_left (norm_nonneg (B2 - z3))]
    exact max_eq_right (le_max_of_le_left (norm_nonneg _))
  have hst := H (fun s => z (-s)) (-tHi) (tHi - tLo) ((z tHi).1, B.1, B.2, (z tHi).2.2.2) (by linarith) (by linarith)
    (by linarith) (by linarith)
    (by
      rw [show -tHi + (tHi - tLo) = -tLo from by ring]
      exact fun s hs => ⟨hz.reverse s hs, hzR (-s) ⟨by linarith [hs.2], by linarith [hs.1]⟩⟩)
    (by simpa only [neg_neg, e] using hB)
  rw [show -tHi + (tHi - tLo) = -tLo from by ring] at hst
  simp only [neg_neg, e] at hst
  rw [cotOf_sub]
  exact (cotOf_le _).trans hst

/-- Consistent Runge-Kutta methods with nodes in `[0, 1]` are of first order on the interpolated adjoint. -/
theorem consistent_interp_step (hf : ContDiff ℝ 2 fun q : P × ℝ × X => f q.1 q.2.1 q.2.2) {θ : P}
    {dg : Option (ℝ → X → (X →L[ℝ] ℝ))} (hdg : ContDiff ℝ 1 fun p : ℝ × X => lossCot dg p.1 p.2) {y : ℝ → X} {t0 T : ℝ}
    (hy : SolvesOn (f θ) y t0 T) (rows : List (ℝ × List ℝ)) (b : List ℝ) (hlen : b.length ≤ rows.length) (hb : b.sum = 1)
    (hnodes : ∀ r ∈ rows, 0 ≤ r.1 ∧ r.1 ≤ 1) {ψ : (ℝ → X) → CotS X P → ℝ → ℝ → CotS X P}
    (hψ : ∀ curve B t h, ψ curve B t h = B + h • comb b
      (rkStagesT (fun s B => -interpDynamics (smoothAdjoint f θ dg) curve (-s) B) B t h rows [])) (R : ℝ) :
    InterpStepNear 1 ψ f θ dg y R t0 T := by
  have h := contDiff_adjointDynamics (f := f) (dg := dg) (n := 1) (by exact_mod_cast hf) θ (by exact_mod_cast hdg)
  obtain ⟨C1, L1, δ1, hC1, hL1, hδ1, H1⟩ := adjoint_step_cot (θ := θ) (dg := dg)
    (euler_one_step (f := fun s (w : AdjS X P) => -adjointDynamics (smoothAdjoint f θ dg) (-s) w)
      (h.comp (by fun_prop : ContDiff ℝ (1 : ℕ) fun p : ℝ × AdjS X P => ((-p.1, p.2) : ℝ × AdjS X P))).neg (-T) (-t0) R)
  obtain ⟨Ry, hRy⟩ := isCompact_Icc.exists_bound_of_continuousOn (f := y) (s := Icc t0 T)
    (fun t ht => (hy t ht).continuousWithinAt)
  obtain ⟨K, hK⟩ := exists_coefLip hf θ hdg (Ry + 1) t0 T
  have hK0 : 0 < K := lt_of_lt_of_le one_pos hK.one_le
  have hyR : ∀ t ∈ Icc t0 T, ‖y t‖ ≤ Ry + 1 := fun t ht => (hRy t ht).trans (by linarith)
  have hylip := solution_lip hK hy hyR
  obtain ⟨W, hW0, hW⟩ := exists_row_bound rows
  have hs0 : 0 ≤ (b.map abs).sum := List.sum_nonneg (by simp +contextual)
  obtain ⟨Γ, hΓ⟩ : ∃ Γ, K * (2 * W * K + 1 + K) * (|R| + 2) = Γ := ⟨_, rfl⟩
  have hΓ0 : 0 ≤ Γ := by rw [← hΓ]; positivity
  refine ⟨C1 + (b.map abs).sum * Γ, L1, min δ1 (1 / (2 * W * K + 1)), by positivity, hL1,
    lt_min hδ1 (by positivity), ?_⟩
  intro curve η hη1 hcurve z tLo tHi B h1 h2 h3 h4 hz hzy hzR hB
  have hgδ := h4.trans (min_le_left _ _)
  have hgW := h4.trans (min_le_right _ _)
  have hg0 : 0 < tHi - tLo := by linarith
  rw [le_div_iff₀ (by positivity)] at hgW
  have hHm : tHi ∈ Icc t0 T := ⟨by linarith, h3⟩
  have hη0 : 0 ≤ η := (norm_nonneg _).trans (hcurve tHi hHm)
  have hcR : ∀ t ∈ Icc t0 T, ‖curve t‖ ≤ Ry + 1 := by
    intro t ht
    have h5 : ‖curve t‖ ≤ ‖curve t - y t‖ + ‖y t‖ := by simpa using norm_add_le (curve t - y t) (y t)
    linarith [hcurve t ht, hRy t ht]
  have hBn : ‖B‖ + 1 ≤ |R| + 2 := by
    have h5 : ‖B‖ ≤ ‖B - cotOf (z tHi)‖ + ‖cotOf (z tHi)‖ := by simpa using norm_add_le (B - cotOf (z tHi)) (cotOf (z tHi))
    have h6 := (cotOf_le (z tHi)).trans (hzR tHi ⟨h2.le, le_rfl⟩)
    linarith [le_abs_self R]
  obtain ⟨hl, hk⟩ := interp_stages (B := B) (g := tHi - tLo) (tHi := tHi) (curve := curve) hK hW0 hη0 hcR hyR hcurve hylip hg0.le
    (by linarith) h3 (by linarith [show (tHi - tLo) * (2 * W * K + 1) = 2 * W * K * (tHi - tLo) + (tHi - tLo) by ring])
    rows (fun r hr => ⟨(hnodes r hr).1, (hnodes r hr).2, (hW r hr).2⟩) [] (by simp) (by simp)
  have hA := H1 z tLo tHi B h1 h2 h3 hgδ hz hzR hB
  have hcot : cotOf ((((z tHi).1, B.1, B.2, (z tHi).2.2.2) : AdjS X P) +
      (tHi - tLo) • -adjointDynamics (smoothAdjoint f θ dg) (- -tHi) ((z tHi).1, B.1, B.2, (z tHi).2.2.2)) =
      B + (tHi - tLo) • cotRate f θ dg tHi (y tHi) B := by
    have := adjoint_cotRate f θ dg tHi ((z tHi).1, B.1, B.2, (z tHi).2.2.2)
    simp only [hzy tHi ⟨h2.le, le_rfl⟩, cotOf] at this
    rw [neg_neg, show cotRate f θ dg tHi (y tHi) B = cotRate f θ dg tHi (y tHi) (B.1, B.2) from rfl, ← this,
      hzy tHi ⟨h2.le, le_rfl⟩]
    rfl
  rw [hcot] at hA
  have hc : ‖comb b (rkStagesT (fun s B => -interpDynamics (smoothAdjoint f θ dg) curve (-s) B) B (-tHi) (tHi - tLo) rows []) -
      cotRate f θ dg tHi (y tHi) B‖ ≤ (b.map abs).sum * (Γ * (tHi - tLo + η)) := by
    have hr := comb_replicate (cotRate f θ dg tHi (y tHi) B) b (rows.length + ([] : List (CotS X P)).length)
      (by simpa using hlen)
    rw [hb, one_smul] at hr
    rw [← hl] at hr
    generalize rkStagesT (fun s B => -interpDynamics (smoothAdjoint f θ dg) curve (-s) B) B (-tHi) (tHi - tLo) rows [] = ks at *
    conv_lhs => rw [← hr]
    refine comb_sub_le b (mul_nonneg hΓ0 (by linarith)) ?_
    rw [List.forall₂_iff_get]
    refine ⟨by simp, fun i hi hi' => ?_⟩
    simp only [List.get_eq_getElem, List.getElem_replicate]
    refine (hk _ (List.getElem_mem hi)).trans (mul_le_mul_of_nonneg_right ?_ (by linarith))
    rw [← hΓ]
    exact mul_le_mul_of_nonneg_left hBn (by positivity)
  rw [hψ]
  generalize comb b (rkStagesT (fun s B => -interpDynamics (smoothAdjoint f θ dg) curve (-s) B) B (-tHi) (tHi - tLo) rows []) =
    k at *
  have e : B + (tHi - tLo) • k - cotOf (z tLo) = (tHi - tLo) • (k - cotRate f θ dg tHi (y tHi) B) +
      (B + (tHi - tLo) • cotRate f θ dg tHi (y tHi) B - cotOf (z tLo)) := by
    rw [smul_sub]
    abel
  rw [e]
  refine (norm_add_le _ _).trans ?_
  rw [norm_smul, Real.norm_of_nonneg hg0.le]
  have m1 := mul_le_mul_of_nonneg_left hc hg0.le
  have e5 : (C1 + (b.map abs).sum * Γ) * (tHi - tLo) * ((tHi - tLo) ^ 1 + η) = C1 * (tHi - tLo) ^ (1 + 1) +
      (tHi - tLo) * ((b.map abs).sum * (Γ * (tHi - tLo + η))) + C1 * (tHi - tLo) * η := by ring
  have e6 : 0 ≤ C1 * (tHi - tLo) * η := by positivity
  rw [e5]
  linarith

/-- Backward euler steps of the state stay within `O(g²)` of the solution. -/
theorem state_back_step (hf : ContDiff ℝ 1 fun q : P × ℝ × X => f q.1 q.2.1 q.2.2) {θ : P} {y : ℝ → X} {t0 T : ℝ}
    (hy : SolvesOn (f θ) y t0 T) :
    ∃ C δ, 0 ≤ C ∧ 0 < δ ∧ ∀ t g, t ≤ T → 0 ≤ g → g ≤ δ → t0 ≤ t - g → ‖y (t - g) - (y t - g • f θ t (y t))‖ ≤ C * g ^ 2 := by
  obtain ⟨R, hR⟩ := isCompact_Icc.exists_bound_of_continuousOn (f := y) (s := Icc t0 T)
    (fun t ht => (hy t ht).continuousWithinAt)
  have hr : ContDiff ℝ 1 fun p : ℝ × X => -f θ (-p.1) p.2 :=
    (hf.comp (by fun_prop : ContDiff ℝ 1 fun p : ℝ × X => ((θ, -p.1, p.2) : P × ℝ × X))).neg
  obtain ⟨C, L, δ, hC, -, hδ, H⟩ := euler_one_step (f := fun s x => -f θ (-s) x) hr (-T) (-t0) R
  refine ⟨C, δ, hC, hδ, fun t g h1 h2 h3 h4 => ?_⟩
  have := H (fun s => y (-s)) (-t) g (y t) (by linarith) h2 h3 (by linarith) (by
      intro s hs
      have h5 : -s ∈ Icc (t - g) t := ⟨by linarith [hs.2], by linarith [hs.1]⟩
      have h6 := (hy.mono h4 h1).reverse s ⟨by linarith [h5.2], by linarith [h5.1]⟩
      rw [show -(t - g) = -t + g by ring] at h6
      exact ⟨h6, hR _ ⟨h4.trans h5.1, h5.2.trans h1⟩⟩) (by simp)
  simp only [neg_neg, sub_self, norm_zero, mul_zero, zero_add] at this
  rw [show -(-t + g) = t - g by ring] at this
  rw [norm_sub_rev, sub_eq_add_neg (y t), ← smul_neg]
  exact this

/-- `midpoint` is of second order on the interpolated adjoint. -/
theorem midpoint_interp_step (hf : ContDiff ℝ 3 fun q : P × ℝ × X => f q.1 q.2.1 q.2.2) {θ : P}
    {dg : Option (ℝ → X → (X →L[ℝ] ℝ))} (hdg : ContDiff ℝ 2 fun p : ℝ × X => lossCot dg p.1 p.2) {y : ℝ → X} {t0 T : ℝ}
    (hy : SolvesOn (f θ) y t0 T) {ψ : (ℝ → X) → CotS X P → ℝ → ℝ → CotS X P}
    (hψ : ∀ curve B t h, ψ curve B t h = B + h • -interpDynamics (smoothAdjoint f θ dg) curve (-(t + (1 / 2 : ℝ) * h))
      (B + ((1 / 2 : ℝ) * h) • -interpDynamics (smoothAdjoint f θ dg) curve (-t) B)) (R : ℝ) :
    InterpStepNear 2 ψ f θ dg y R t0 T := by
  have h := contDiff_adjointDynamics (f := f) (dg := dg) (n := 2) (by exact_mod_cast hf) θ (by exact_mod_cast hdg)
  obtain ⟨C1, L1, δ1, hC1, hL1, hδ1, H1⟩ := adjoint_step_cot (θ := θ) (dg := dg)
    (midpoint_one_step (f := fun s (w : AdjS X P) => -adjointDynamics (smoothAdjoint f θ dg) (-s) w)
      (h.comp (by fun_prop : ContDiff ℝ (2 : ℕ) fun p : ℝ × AdjS X P => ((-p.1, p.2) : ℝ × AdjS X P))).neg (-T) (-t0) R)
  obtain ⟨Ry, hRy⟩ := isCompact_Icc.exists_bound_of_continuousOn (f := y) (s := Icc t0 T)
    (fun t ht => (hy t ht).continuousWithinAt)
  obtain ⟨C2, δ2, hC2, hδ2, H2⟩ := state_back_step (hf.of_le (by norm_num)) hy
  obtain ⟨K, hK⟩ := exists_coefLip (hf.of_le (by norm_num)) θ (hdg.of_le (by norm_num)) (Ry + 1) t0 T
  have hK0 : 0 < K := lt_of_lt_of_le one_pos hK.one_le
  obtain ⟨N, hN⟩ : ∃ N, |R| + 2 = N := ⟨_, rfl⟩
  have hN0 : 0 ≤ N := by rw [← hN]; positivity
  refine ⟨C1 + K * N * (K + 2 + 2 * C2), L1, min (min δ1 δ2) (1 / (K + 1)), by positivity, hL1,
    lt_min (lt_min hδ1 hδ2) (by positivity), ?_⟩
  intro curve η hη1 hcurve z tLo tHi B h1 h2 h3 h4 hz hzy hzR hB
  have hg1 := h4.trans ((min_le_left _ _).trans (min_le_left _ _))
  have hg2 := h4.trans ((min_le_left _ _).trans (min_le_right _ _))
  have hgK := h4.trans (min_le_right _ _)
  rw [le_div_iff₀ (by positivity)] at hgK
  have hA := H1 z tLo tHi B h1 h2 h3 hg1 hz hzR hB
  have hzH := hzy tHi ⟨h2.le, le_rfl⟩
  have hHm : tHi ∈ Icc t0 T := ⟨by linarith, h3⟩
  have hη0 : 0 ≤ η := (norm_nonneg _).trans (hcurve tHi hHm)
  have hcR : ∀ t ∈ Icc t0 T, ‖curve t‖ ≤ Ry + 1 := by
    intro t ht
    have h5 : ‖curve t‖ ≤ ‖curve t - y t‖ + ‖y t‖ := by simpa using norm_add_le (curve t - y t) (y t)
    linarith [hcurve t ht, hRy t ht]
  have hyR : ∀ t ∈ Icc t0 T, ‖y t‖ ≤ Ry + 1 := fun t ht => (hRy t ht).trans (by linarith)
  have hBn : ‖B‖ + 1 ≤ N := by
    have h5 : ‖B‖ ≤ ‖B - cotOf (z tHi)‖ + ‖cotOf (z tHi)‖ := by simpa using norm_add_le (B - cotOf (z tHi)) (cotOf (z tHi))
    have h6 := (cotOf_le (z tHi)).trans (hzR tHi ⟨h2.le, le_rfl⟩)
    linarith [le_abs_self R]
  rw [hzH] at hA
  obtain ⟨g, hgd⟩ : ∃ g, tHi - tLo = g := ⟨_, rfl⟩
  rw [hgd] at hA hg1 hg2 hgK ⊢
  have hg0 : 0 < g := by linarith
  have hgK' : g * K ≤ 1 := by linarith [show g * (K + 1) = g * K + g by ring]
  have hmm : tHi - 1 / 2 * g ∈ Icc t0 T := ⟨by linarith, by linarith⟩
  have hst := H2 tHi (1 / 2 * g) h3 (by linarith) (by linarith) hmm.1
  -- the two steps written with `cotRate`
  obtain ⟨x2, hx2⟩ : ∃ x2, y tHi - ((1 / 2 : ℝ) * g) • f θ tHi (y tHi) = x2 := ⟨_, rfl⟩
  obtain ⟨k1, hk1⟩ : ∃ k1, cotRate f θ dg tHi (y tHi) B = k1 := ⟨_, rfl⟩
  obtain ⟨l1, hl1⟩ : ∃ l1, cotRate f θ dg tHi (curve tHi) B = l1 := ⟨_, rfl⟩
  rw [hx2] at hst
  have hcot : cotOf ((((y tHi), B.1, B.2, (z tHi).2.2.2) : AdjS X P) + g • -adjointDynamics (smoothAdjoint f θ dg)
      (-(-tHi + 1 / 2 * g)) (((y tHi), B.1, B.2, (z tHi).2.2.2) + ((1 / 2 : ℝ) * g) •
        -adjointDynamics (smoothAdjoint f θ dg) (- -tHi) ((y tHi), B.1, B.2, (z tHi).2.2.2))) =
      B + g • cotRate f θ dg (tHi - 1 / 2 * g) x2 (B + ((1 / 2 : ℝ) * g) • k1) := by
    rw [neg_neg, show -(-tHi + 1 / 2 * g) = tHi - 1 / 2 * g by ring]
    have e1 := adjoint_cotRate f θ dg tHi ((y tHi), B.1, B.2, (z tHi).2.2.2)
    have e0 : (-adjointDynamics (smoothAdjoint f θ dg) tHi ((y tHi), B.1, B.2, (z tHi).2.2.2)).1 = -f θ tHi (y tHi) := by
      rw [adjointDynamics_smooth]
      rfl
    generalize -adjointDynamics (smoothAdjoint f θ dg) tHi ((y tHi), B.1, B.2, (z tHi).2.2.2) = S1 at *
    have e2 := adjoint_cotRate f θ dg (tHi - 1 / 2 * g) (((y tHi), B.1, B.2, (z tHi).2.2.2) + ((1 / 2 : ℝ) * g) • S1)
    generalize -adjointDynamics (smoothAdjoint f θ dg) (tHi - 1 / 2 * g)
      (((y tHi), B.1, B.2, (z tHi).2.2.2) + ((1 / 2 : ℝ) * g) • S1) = S2 at *
    have e3 : cotOf (((y tHi), B.1, B.2, (z tHi).2.2.2) + ((1 / 2 : ℝ) * g) • S1) = B + ((1 / 2 : ℝ) * g) • k1 := by
      rw [← hk1]
      change B + ((1 / 2 : ℝ) * g) • cotOf S1 = _
      rw [e1]
      rfl
    have e4 : ((((y tHi), B.1, B.2, (z tHi).2.2.2) : AdjS X P) + ((1 / 2 : ℝ) * g) • S1).1 = x2 := by
      rw [← hx2, sub_eq_add_neg, ← smul_neg, ← e0]
      rfl
    rw [e3, e4] at e2
    rw [← e2]
    rfl
  have hint : ψ curve B (-tHi) g = B + g • cotRate f θ dg (tHi - 1 / 2 * g) (curve (tHi - 1 / 2 * g))
      (B + ((1 / 2 : ℝ) * g) • l1) := by
    rw [hψ, neg_neg, interp_cotRate, interp_cotRate, hl1, show -(-tHi + 1 / 2 * g) = tHi - 1 / 2 * g by ring]
  rw [hcot] at hA
  rw [hint]
  have hk1n : ‖k1‖ ≤ K * N := by
    rw [← hk1]
    exact (cotRate_le hK hHm (hyR _ hHm) B).trans (mul_le_mul_of_nonneg_left hBn hK0.le)
  have hkl : ‖l1 - k1‖ ≤ K * N * η := by
    rw [← hl1, ← hk1]
    refine (cotRate_lip hK hHm hHm (hcR _ hHm) (hyR _ hHm) B B).trans ?_
    rw [sub_self, norm_zero, mul_zero, zero_add, sub_self, abs_zero, zero_add]
    exact mul_le_mul (mul_le_mul_of_nonneg_left hBn hK0.le) (hcurve _ hHm) (norm_nonneg _) (by positivity)
  have hx2n : ‖x2‖ ≤ Ry + 1 := by
    rw [← hx2]
    refine (norm_sub_le _ _).trans (add_le_add (hRy _ hHm) ?_)
    rw [norm_smul, Real.norm_of_nonneg (by linarith)]
    have := mul_le_mul_of_nonneg_left (hK.vf tHi hHm _ (hyR _ hHm)) (by linarith : 0 ≤ 1 / 2 * g)
    linarith [mul_pos hg0 hK0]
  have hBk : ‖B + ((1 / 2 : ℝ) * g) • k1‖ + 1 ≤ 2 * N := by
    have h5 := norm_add_le B (((1 / 2 : ℝ) * g) • k1)
    rw [norm_smul, Real.norm_of_nonneg (by linarith)] at h5
    have h6 := mul_le_mul_of_nonneg_left hk1n (by linarith : 0 ≤ 1 / 2 * g)
    have h7 := mul_le_mul_of_nonneg_right hgK' hN0
    linarith [show 1 / 2 * g * (K * N) = 1 / 2 * (g * K * N) by ring]
  have hcx : ‖curve (tHi - 1 / 2 * g) - x2‖ ≤ η + C2 * g ^ 2 := by
    have h5 := norm_add_le (curve (tHi - 1 / 2 * g) - y (tHi - 1 / 2 * g)) (y (tHi - 1 / 2 * g) - x2)
    rw [sub_add_sub_cancel] at h5
    have h6 := hcurve _ hmm
    have h7 : C2 * (1 / 2 * g) ^ 2 ≤ C2 * g ^ 2 :=
      mul_le_mul_of_nonneg_left (pow_le_pow_left₀ (by linarith) (by linarith) 2) hC2
    linarith
  have hdiff : ‖cotRate f θ dg (tHi - 1 / 2 * g) (curve (tHi - 1 / 2 * g)) (B + ((1 / 2 : ℝ) * g) • l1) -
      cotRate f θ dg (tHi - 1 / 2 * g) x2 (B + ((1 / 2 : ℝ) * g) • k1)‖ ≤ K * N * (K + 2 + 2 * C2) * (g ^ 2 + η) := by
    refine (cotRate_lip hK hmm hmm (hcR _ hmm) hx2n _ _).trans ?_
    have e : ((1 / 2 : ℝ) * g) • l1 - ((1 / 2 : ℝ) * g) • k1 = ((1 / 2 : ℝ) * g) • (l1 - k1) := (smul_sub _ _ _).symm
    rw [add_sub_add_left_eq_sub, e, norm_smul, Real.norm_of_nonneg (by linarith), sub_self, abs_zero, zero_add]
    have a1 : K * (1 / 2 * g * ‖l1 - k1‖) ≤ K * N * η := by
      have h5 := mul_le_mul_of_nonneg_left hkl (by linarith : 0 ≤ 1 / 2 * g)
      have h6 := mul_le_mul_of_nonneg_left h5 hK0.le
      have h7 : 0 ≤ K * N * η := by positivity
      have h8 := mul_le_mul_of_nonneg_right hgK' h7
      linarith [show K * (1 / 2 * g * (K * N * η)) = 1 / 2 * (g * K * (K * N * η)) by ring]
    have a2 : K * (‖B + ((1 / 2 : ℝ) * g) • k1‖ + 1) * ‖curve (tHi - 1 / 2 * g) - x2‖ ≤ K * (2 * N) * (η + C2 * g ^ 2) :=
      mul_le_mul (mul_le_mul_of_nonneg_left hBk hK0.le) hcx (norm_nonneg _) (by positivity)
    have a3 : 0 ≤ K * N * K * g ^ 2 := by positivity
    have a4 : 0 ≤ K * N * 2 * g ^ 2 := by positivity
    have a5 : 0 ≤ K * N * (2 * C2) * η := by positivity
    have a6 : K * N * η ≤ K * N * η * K := le_mul_of_one_le_right (by positivity) hK.one_le
    have e : K * N * (K + 2 + 2 * C2) * (g ^ 2 + η) = K * N * η * K + K * (2 * N) * (η + C2 * g ^ 2) + K * N * K * g ^ 2 +
        K * N * 2 * g ^ 2 + K * N * (2 * C2) * η := by ring
    linarith
  generalize cotRate f θ dg (tHi - 1 / 2 * g) (curve (tHi - 1 / 2 * g)) (B + ((1 / 2 : ℝ) * g) • l1) = l2 at *
  generalize cotRate f θ dg (tHi - 1 / 2 * g) x2 (B + ((1 / 2 : ℝ) * g) • k1) = k2 at *
  have e : B + g • l2 - cotOf (z tLo) = g • (l2 - k2) + (B + g • k2 - cotOf (z tLo)) := by
    rw [smul_sub]
    abel
  rw [e]
  refine (norm_add_le _ _).trans ?_
  rw [norm_smul, Real.norm_of_nonneg hg0.le]
  have m1 := mul_le_mul_of_nonneg_left hdiff hg0.le
  have e5 : (C1 + K * N * (K + 2 + 2 * C2)) * g * (g ^ 2 + η) = C1 * g ^ (2 + 1) +
      g * (K * N * (K + 2 + 2 * C2) * (g ^ 2 + η)) + C1 * g * η := by ring
  have e6 : 0 ≤ C1 * g * η := by positivity
  rw [e5]
  linarith

/-- The numerical loop of the interpolated adjoint beside the exact loop of the full adjoint. -/
theorem interpLoop_order (hf : ContDiff ℝ 1 fun q : P × ℝ × X => f q.1 q.2.1 q.2.2) {θ : P}
    {dg : Option (ℝ → X → (X →L[ℝ] ℝ))} {y curve : ℝ → X} {t0 T B L E h ε Q R : ℝ} (hy : SolvesOn (f θ) y t0 T)
    (hyR : ∀ t ∈ Icc t0 T, ‖y t‖ ≤ R) (hB : 0 < B)
    (hgrow : ∀ (z : ℝ → AdjS X P) (a b : ℝ), t0 ≤ a → b ≤ T →
      SolvesOn (adjointDynamics (smoothAdjoint f θ dg)) z a b → (∀ t ∈ Icc a b, (z t).1 = y t) →
      ∀ t ∈ Icc a b, ‖(z t).2‖ + 1 ≤ Real.exp (B * (b - t)) * (‖(z b).2‖ + 1))
    {ψ : CotS X P → ℝ → ℝ → CotS X P} (hE : 0 ≤ E) (hL : 0 ≤ L) (hε : 0 ≤ ε)
    (hstep : ∀ (z : ℝ → AdjS X P) (tLo tHi : ℝ) (b : CotS X P), t0 ≤ tLo → tLo < tHi → tHi ≤ T → tHi - tLo ≤ h →
      SolvesOn (adjointDynamics (smoothAdjoint f θ dg)) z tLo tHi → (∀ t ∈ Icc tLo tHi, (z t).1 = y t) →
      (∀ t ∈ Icc tLo tHi, ‖z t‖ ≤ R) → ‖b - cotOf (z tHi)‖ ≤ 1 →
      ‖ψ b (-tHi) (tHi - tLo) - cotOf (z tLo)‖ ≤ (1 + L * (tHi - tLo)) * ‖b - cotOf (z tHi)‖ + E * (tHi - tLo))
    (hR : Real.exp (B * (T - t0)) * Q ≤ R) (hsmall : Real.exp (L * (T - t0)) * (ε * Q + E * (T - t0)) ≤ 1)
    {solver : Solver (Except PyErr) ℝ (CotS X P) A} {args : A}
    (hψ : SteppedBy solver (fun s w => -interpDynamics (smoothAdjoint f θ dg) curve (-s) w) args ψ)
    {solve} (hsolve : ExactAlong solve (smoothAdjoint f θ dg) y t0 T) {ts : List ℝ} (hinc : ts.Pairwise (· < ·))
    (hts : ∀ t ∈ ts, t0 ≤ t ∧ t ≤ T)
    (hgap : ∀ (k : ℕ) (t t' : ℝ), ts[k]? = some t → ts[k + 1]? = some t' → t' - t ≤ h) {gt : List ℝ}
    (hgt : ∀ j < ts.length, gt[j]? = some 0) {gx gx' : List (X →L[ℝ] ℝ)} {w : List ℝ} (hw : ∀ ω ∈ w, 0 ≤ ω)
    (hgx : ∀ j < ts.length, ∃ a a' ω, gx[j]? = some a ∧ gx'[j]? = some a' ∧ w[j]? = some ω ∧ ‖a'‖ ≤ ω ∧ ‖a - a'‖ ≤ ω * ε) :
    ∀ (i : ℕ) (S : CotS X P) (Z : AdjS X P) (σ d' τ : ℝ), ts[i]? = some τ → Z.1 = y τ →
      ‖Z.2‖ + 1 ≤ Real.exp (B * (T - τ)) * σ → ‖S - cotOf Z‖ ≤ Real.exp (L * (T - τ)) * (ε * σ + E * (T - τ)) →
      σ + (w.take i).sum ≤ Q →
      ∃ S' Z' e', backPass ψ (fun S g => (S.1 + g, S.2)) ts gx i S = some S' ∧
        (Separated ts → interpLoop (fun g S ts => odeintFixed g S ts solver [] args) (smoothAdjoint f θ dg) curve ts gx i S =
          .ok S') ∧
        adjointLoop solve (smoothAdjoint f θ dg) ts gt gx' i Z d' = .ok (Z', e') ∧
        ‖S' - cotOf Z'‖ ≤ Real.exp (L * (T - t0)) * (ε * Q + E * (T - t0)) := by
  have : ProperSpace X := FiniteDimensional.proper ℝ X
  have hd : Differentiable ℝ fun q : P × ℝ × X => f q.1 q.2.1 q.2.2 := hf.differentiable (by simp)
  have hmono : ∀ {τ σ : ℝ}, t0 ≤ τ → τ ≤ T → 0 ≤ σ → σ ≤ Q → Real.exp (L * (T - τ)) * (ε * σ + E * (T - τ)) ≤
      Real.exp (L * (T - t0)) * (ε * Q + E * (T - t0)) := by
    intro τ σ h0 h1 hσ0 hσ
    refine mul_le_mul (Real.exp_le_exp.2 (mul_le_mul_of_nonneg_left (by linarith) hL)) (add_le_add
      (mul_le_mul_of_nonneg_left hσ hε) (mul_le_mul_of_nonneg_left (by linarith) hE)) ?_ (Real.exp_pos _).le
    exact add_nonneg (mul_nonneg hε hσ0) (mul_nonneg hE (by linarith))
  intro i
  induction i with
  | zero =>
    intro S Z σ d' τ hτ _ hZ hS hσ
    have hτm := hts τ (List.mem_of_getElem? hτ)
    have hσ0 : 0 ≤ σ := by
      have h1 : 0 < Real.exp (B * (T - τ)) * σ := lt_of_lt_of_le (by positivity) hZ
      exact (pos_of_mul_pos_right h1 (Real.exp_pos _).le).le
    exact ⟨S, Z, d', rfl, fun _ => rfl, rfl, hS.trans (hmono hτm.1 hτm.2 hσ0 (by simpa using hσ))⟩
  | succ i ih =>
    intro S Z σ d' τ hτ hZy hZ hS hσ
    obtain ⟨hi, rfl⟩ := List.getElem?_eq_some_iff.1 hτ
    have hi' : i < ts.length := by omega
    have hlt : ts[i] < ts[i + 1] := List.pairwise_iff_getElem.1 hinc i (i + 1) hi' hi (by omega)
    have hm1 := hts _ (List.getElem_mem hi)
    have hm0 := hts _ (List.getElem_mem hi')
    have hg := hgap i _ _ (List.getElem?_eq_getElem hi') (List.getElem?_eq_getElem hi)
    have hnum : Separated ts → _ := fun hsep =>
      odeintFixed_back_step hψ S hlt (List.pairwise_iff_getElem.1 hsep i (i + 1) hi' hi (by omega)).2
        (List.pairwise_iff_getElem.1 hsep i (i + 1) hi' hi (by omega)).1
    obtain ⟨a, a', ω, hga, hga', hwω, hω1, hω2⟩ := hgx i hi'
    generalize htLo : ts[i] = tLo at *
    generalize htHi : ts[i + 1] = tHi at *
    obtain ⟨z, tr, hz0, hz, hex⟩ := hsolve Z tHi tLo hm0.1 hlt hm1.2 hZy
    have hω0 : 0 ≤ ω := hw ω (List.mem_of_getElem? hwω)
    have htake : (w.take (i + 1)).sum = (w.take i).sum + ω := by
      rw [List.take_add_one, hwω]
      simp
    rw [htake] at hσ
    have htk := take_sum_nonneg hw i
    have hσQ : σ ≤ Q := by linarith
    have hσ0 : 0 ≤ σ := by
      have h1 : 0 < Real.exp (B * (T - tHi)) * σ := lt_of_lt_of_le (by positivity) hZ
      exact (pos_of_mul_pos_right h1 (Real.exp_pos _).le).le
    -- the exact solution of the adjoint equation follows `y`
    have hz1 : SolvesOn (f θ) (fun s => (z s).1) tLo tHi := by
      intro s hs
      have h1 := (hz s hs).fst
      rwa [adjointDynamics_smooth] at h1
    have hzy : ∀ t ∈ Icc tLo tHi, (z t).1 = y t := by
      refine backward_unique (g := f θ) ?_ ?_ hz1 (hy.mono hm0.1 hm1.2) (by simp only [hz0]; exact hZy)
      · simp only [partial_x hd]
        have h1 : Continuous fun p : ℝ × X => fderiv ℝ (fun q : P × ℝ × X => f q.1 q.2.1 q.2.2) (θ, p.1, p.2) :=
          (hf.continuous_fderiv (by simp)).comp (by fun_prop : Continuous fun p : ℝ × X => ((θ, p.1, p.2) : P × ℝ × X))
        exact h1.clm_comp continuous_const
      · intro t
        exact hd.comp (by fun_prop : Differentiable ℝ fun x : X => ((θ, t, x) : P × ℝ × X))
    have hzg : ∀ t ∈ Icc tLo tHi, ‖(z t).2‖ + 1 ≤ Real.exp (B * (T - t)) * σ := by
      intro t ht
      refine (hgrow z tLo tHi hm0.1 hm1.2 hz hzy t ht).trans ?_
      rw [hz0]
      calc Real.exp (B * (tHi - t)) * (‖Z.2‖ + 1) ≤ Real.exp (B * (tHi - t)) * (Real.exp (B * (T - tHi)) * σ) :=
            mul_le_mul_of_nonneg_left hZ (Real.exp_pos _).le
        _ = Real.exp (B * (T - t)) * σ := by
            rw [← mul_assoc, ← Real.exp_add]
            congr 2
            ring
    have hzR : ∀ t ∈ Icc tLo tHi, ‖z t‖ ≤ R := by
      intro t ht
      rw [Prod.norm_def, hzy t ht]
      refine max_le (hyR t ⟨hm0.1.trans ht.1, ht.2.trans hm1.2⟩) ?_
      have h1 := hzg t ht
      have h2 : Real.exp (B * (T - t)) * σ ≤ Real.exp (B * (T - t0)) * Q :=
        mul_le_mul (Real.exp_le_exp.2 (mul_le_mul_of_nonneg_left (by linarith [ht.1, hm0.1]) hB.le)) hσQ hσ0
          (Real.exp_pos _).le
      linarith
    have hS1 : ‖S - cotOf Z‖ ≤ 1 := hS.trans ((hmono hm1.1 hm1.2 hσ0 hσQ).trans hsmall)
    have hst := hstep z tLo tHi S hm0.1 hlt hm1.2 hg hz hzy hzR (by rw [hz0]; exact hS1)
    rw [show -tLo - -tHi = tHi - tLo from by ring] at hnum
    rw [hz0] at hst
    generalize hS'd : ψ S (-tHi) (tHi - tLo) = S1 at *
    have hg0 : 0 ≤ tHi - tLo := by linarith
    have hJ : ‖((S1.1 + a, S1.2) : CotS X P) - cotOf ((z tLo).1, (z tLo).2.1 + a', (z tLo).2.2.1, (z tLo).2.2.2 - 0)‖ ≤
        ‖S1 - cotOf (z tLo)‖ + ω * ε := by
      have e : ((S1.1 + a, S1.2) : CotS X P) - cotOf ((z tLo).1, (z tLo).2.1 + a', (z tLo).2.2.1, (z tLo).2.2.2 - 0) =
          (S1 - cotOf (z tLo)) + (a - a', 0) := by
        ext1
        · simp only [cotOf, Prod.fst_sub, Prod.fst_add]
          abel
        · simp [cotOf]
      rw [e]
      refine (norm_add_le _ _).trans (add_le_add le_rfl ?_)
      rw [Prod.norm_def]
      simp only [norm_zero]
      exact max_le hω2 (mul_nonneg hω0 hε)
    obtain ⟨S', Z', e', hl0, hl1, hl2, hfin⟩ := ih (S1.1 + a, S1.2)
      ((z tLo).1, (z tLo).2.1 + a', (z tLo).2.2.1, (z tLo).2.2.2 - 0) (σ + ω)
      ((smoothAdjoint f θ dg).pair (z tLo).2.1 ((smoothAdjoint f θ dg).vf tHi (z tLo).1)) tLo
      (by rw [List.getElem?_eq_getElem hi', htLo]) (hzy tLo ⟨le_rfl, hlt.le⟩) (by
        have h1 := hzg tLo ⟨le_rfl, hlt.le⟩
        have h2 : ‖(((z tLo).2.1 + a', (z tLo).2.2.1, (z tLo).2.2.2 - 0) : (X →L[ℝ] ℝ) × (P →L[ℝ] ℝ) × ℝ)‖ ≤
            ‖(z tLo).2‖ + ω := by
          have e : (((z tLo).2.1 + a', (z tLo).2.2.1, (z tLo).2.2.2 - 0) : (X →L[ℝ] ℝ) × (P →L[ℝ] ℝ) × ℝ) =
              (z tLo).2 + (a', 0, 0) := by
            ext1
            · rfl
            · ext1 <;> simp
          rw [e]
          refine (norm_add_le _ _).trans (add_le_add le_rfl ?_)
          rw [Prod.norm_def, Prod.norm_def]
          simp only [norm_zero, max_self]
          exact max_le hω1 hω0
        have h3 : ω ≤ Real.exp (B * (T - tLo)) * ω :=
          le_mul_of_one_le_left hω0 (Real.one_le_exp (mul_nonneg hB.le (by linarith)))
        rw [mul_add]
        linarith) (by
        refine hJ.trans ?_
        have hE1 : 1 + L * (tHi - tLo) ≤ Real.exp (L * (tHi - tLo)) := by
          have := Real.add_one_le_exp (L * (tHi - tLo))
          linarith
        have hEm : Real.exp (L * (T - tLo)) = Real.exp (L * (tHi - tLo)) * Real.exp (L * (T - tHi)) := by
          rw [← Real.exp_add]
          congr 1
          ring
        have hE0 : 1 ≤ Real.exp (L * (T - tLo)) := Real.one_le_exp (mul_nonneg hL (by linarith))
        have h1 : (1 + L * (tHi - tLo)) * ‖S - cotOf Z‖ ≤
            Real.exp (L * (T - tLo)) * (ε * σ + E * (T - tHi)) := by
          rw [hEm, mul_assoc]
          exact mul_le_mul hE1 hS (norm_nonneg _) (Real.exp_pos _).le
        have h2 : E * (tHi - tLo) ≤ Real.exp (L * (T - tLo)) * (E * (tHi - tLo)) :=
          le_mul_of_one_le_left (mul_nonneg hE hg0) hE0
        have h3 : ω * ε ≤ Real.exp (L * (T - tLo)) * (ω * ε) := le_mul_of_one_le_left (mul_nonneg hω0 hε) hE0
        have e4 : Real.exp (L * (T - tLo)) * (ε * (σ + ω) + E * (T - tLo)) =
            Real.exp (L * (T - tLo)) * (ε * σ + E * (T - tHi)) +
              Real.exp (L * (T - tLo)) * (E * (tHi - tLo)) + Real.exp (L * (T - tLo)) * (ω * ε) := by ring
        rw [e4]
        linarith) (by linarith)
    refine ⟨S', Z', e', ?_, fun hsep => ?_, ?_, hfin⟩
    · rw [backPass, List.getElem?_eq_getElem hi', List.getElem?_eq_getElem hi, hga, htLo, htHi]
      simp only
      rw [hS'd]
      exact hl0
    · have hnum := hnum hsep
      have hl1 := hl1 hsep
      rw [interpLoop]
      simp only [bind, Except.bind, pure, Except.pure, getItem, List.getElem?_eq_getElem hi',
        List.getElem?_eq_getElem hi, hga, htLo, htHi]
      have e : odeintFixed (fun t S => Except.ok (interpDynamics (smoothAdjoint f θ dg) curve t S)) S [tHi, tLo] solver []
          args = .ok ([-tHi, -tLo], [S, S1]) := hnum
      rw [e]
      simp only [getLastItem, List.getLast?_cons_cons, List.getLast?_singleton, pure, Except.pure]
      exact hl1
    · rw [adjointLoop]
      simp only [bind, Except.bind, pure, Except.pure, getItem, List.getElem?_eq_getElem hi',
        List.getElem?_eq_getElem hi, hgt i hi', hga', htLo, htHi]
      simp only [pure, Except.pure] at hex
      rw [hex]
      simp only [getLastItem, List.getLast?_cons_cons, List.getLast?_singleton, pure, Except.pure]
      exact hl2

end Torchdyn
