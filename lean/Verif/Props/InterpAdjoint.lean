import Verif.Model.InterpAdjoint
import Verif.Props.AdjointNumerics
import Verif.Props.Sensitivity
import Mathlib.Analysis.SpecialFunctions.SmoothTransition

/-!
C125: the backward pass of the interpolated adjoint (sensitivity.py:115-159).
-/

set_option linter.unusedSectionVars false
set_option linter.unusedSimpArgs false

namespace Torchdyn

open Spec Set
open scoped Topology

variable {X P : Type} [NormedAddCommGroup X] [NormedSpace ℝ X] [FiniteDimensional ℝ X]
  [NormedAddCommGroup P] [NormedSpace ℝ P] [FiniteDimensional ℝ P] {f : P → ℝ → X → X}

/-- State of the interpolated adjoint: cotangents of state and parameters. -/
abbrev CotS (X P : Type) [NormedAddCommGroup X] [NormedSpace ℝ X] [NormedAddCommGroup P] [NormedSpace ℝ P] :=
  (X →L[ℝ] ℝ) × (P →L[ℝ] ℝ)

/-- The solves of the backward pass return the value at the lower time of a solution of the equation they are given, up to
a relative error `ε`. -/
def InterpSolves (ε : ℝ) (solve : (ℝ → CotS X P → Except PyErr (CotS X P)) → CotS X P → List ℝ →
      Except PyErr (List ℝ × List (CotS X P)))
    (F : AdjointField ℝ X (X →L[ℝ] ℝ) (P →L[ℝ] ℝ)) (curve : ℝ → X) (a b : ℝ) : Prop :=
  ∀ (B : CotS X P) (tHi tLo : ℝ), a ≤ tLo → tLo < tHi → tHi ≤ b →
    ∃ z B' ts, z tHi = B ∧ SolvesOn (interpDynamics F curve) z tLo tHi ∧ ‖B' - z tLo‖ ≤ ε * (1 + ‖B‖) ∧
      solve (fun t A => pure (interpDynamics F curve t A)) B [tHi, tLo] = .ok (ts, [B, B'])

theorem interpDynamics_smooth (f : P → ℝ → X → X) (θ : P) (dg : Option (ℝ → X → (X →L[ℝ] ℝ))) (curve : ℝ → X) (t : ℝ)
    (B : CotS X P) :
    interpDynamics (smoothAdjoint f θ dg) curve t B =
      (-(B.1.comp (fderiv ℝ (fun x' => f θ t x') (curve t))) - lossCot dg t (curve t),
        -(B.1.comp (fderiv ℝ (fun θ' => f θ' t (curve t)) θ))) := by
  unfold interpDynamics
  simp only [smoothAdjoint]
  cases dg <;> simp [lossCot]

/-- Bounds on the coefficients of the adjoint equation near a curve `y`. -/
structure CoefBounds (f : P → ℝ → X → X) (θ : P) (dg : Option (ℝ → X → (X →L[ℝ] ℝ))) (y : ℝ → X) (t0 T K : ℝ) : Prop where
  one_le : 1 ≤ K
  dx : ∀ t ∈ Icc t0 T, ∀ x, ‖x - y t‖ ≤ 1 → ‖fderiv ℝ (fun x' => f θ t x') x‖ ≤ K
  dp : ∀ t ∈ Icc t0 T, ∀ x, ‖x - y t‖ ≤ 1 → ‖fderiv ℝ (fun θ' => f θ' t x) θ‖ ≤ K
  dx_lip : ∀ t ∈ Icc t0 T, ∀ x, ‖x - y t‖ ≤ 1 →
    ‖fderiv ℝ (fun x' => f θ t x') x - fderiv ℝ (fun x' => f θ t x') (y t)‖ ≤ K * ‖x - y t‖
  dp_lip : ∀ t ∈ Icc t0 T, ∀ x, ‖x - y t‖ ≤ 1 →
    ‖fderiv ℝ (fun θ' => f θ' t x) θ - fderiv ℝ (fun θ' => f θ' t (y t)) θ‖ ≤ K * ‖x - y t‖
  dg_lip : ∀ t ∈ Icc t0 T, ∀ x, ‖x - y t‖ ≤ 1 → ‖lossCot dg t x - lossCot dg t (y t)‖ ≤ K * ‖x - y t‖

/-- Continuously differentiable functions are bounded and Lipschitz near a continuous curve, uniformly in time. -/
theorem lip_near_curve {E : Type} [NormedAddCommGroup E] [NormedSpace ℝ E] {g : ℝ × X → E} (hg : ContDiff ℝ 1 g)
    {y : ℝ → X} {t0 T : ℝ} (hy : ContinuousOn y (Icc t0 T)) :
    ∃ K : ℝ, ∀ t ∈ Icc t0 T, ∀ x, ‖x - y t‖ ≤ 1 → ‖g (t, x)‖ ≤ K ∧ ‖g (t, x) - g (t, y t)‖ ≤ K * ‖x - y t‖ := by
  have : ProperSpace X := FiniteDimensional.proper ℝ X
  obtain ⟨R, hR⟩ := isCompact_Icc.exists_bound_of_continuousOn hy
  have hc : IsCompact (Icc t0 T ×ˢ Metric.closedBall (0 : X) (R + 1)) := isCompact_Icc.prod (isCompact_closedBall _ _)
  obtain ⟨K1, hK1⟩ := hc.exists_bound_of_continuousOn hg.continuous.continuousOn
  obtain ⟨K2, hK2⟩ := hc.exists_bound_of_continuousOn (hg.continuous_fderiv (by simp)).continuousOn
  have hin : ∀ t ∈ Icc t0 T, ∀ x, ‖x - y t‖ ≤ 1 → x ∈ Metric.closedBall (0 : X) (R + 1) := by
    intro t ht x hx
    rw [mem_closedBall_zero_iff]
    have : ‖x‖ ≤ ‖x - y t‖ + ‖y t‖ := by simpa using norm_add_le (x - y t) (y t)
    linarith [hR t ht]
  refine ⟨max K1 K2, fun t ht x hx => ⟨(hK1 (t, x) ⟨ht, hin t ht x hx⟩).trans (le_max_left _ _), ?_⟩⟩
  have hd : ∀ x', HasFDerivAt (fun x' => g (t, x')) ((fderiv ℝ g (t, x')).comp (ContinuousLinearMap.inr ℝ ℝ X)) x' := fun x' =>
    HasFDerivAt.comp x' (f := fun x' : X => (t, x')) ((hg.differentiable (by simp)) (t, x')).hasFDerivAt
      (hasFDerivAt_prodMk_right _ _)
  refine (convex_closedBall (0 : X) (R + 1)).norm_image_sub_le_of_norm_hasFDerivWithin_le
    (fun x' _ => (hd x').hasFDerivWithinAt) ?_ (hin t ht (y t) (by simp)) (hin t ht x hx)
  intro x' hx'
  refine (ContinuousLinearMap.opNorm_comp_le _ _).trans ?_
  have h1 : ‖ContinuousLinearMap.inr ℝ ℝ X‖ ≤ 1 := ContinuousLinearMap.opNorm_le_bound _ zero_le_one fun v => by
    simp [Prod.norm_def]
  calc _ ≤ ‖fderiv ℝ g (t, x')‖ * 1 := mul_le_mul_of_nonneg_left h1 (norm_nonneg _)
    _ ≤ _ := by rw [mul_one]; exact (hK2 (t, x') ⟨ht, hx'⟩).trans (le_max_right _ _)

theorem exists_coefBounds (hf : ContDiff ℝ 2 fun q : P × ℝ × X => f q.1 q.2.1 q.2.2) (θ : P)
    {dg : Option (ℝ → X → (X →L[ℝ] ℝ))} (hdg : ContDiff ℝ 1 fun p : ℝ × X => lossCot dg p.1 p.2) {y : ℝ → X} {t0 T : ℝ}
    (hy : ContinuousOn y (Icc t0 T)) : ∃ K, CoefBounds f θ dg y t0 T K := by
  have hd : Differentiable ℝ fun q : P × ℝ × X => f q.1 q.2.1 q.2.2 := hf.differentiable (by simp)
  have hD : ContDiff ℝ 1 (fderiv ℝ fun q : P × ℝ × X => f q.1 q.2.1 q.2.2) := hf.fderiv_right (by norm_num)
  have hin : ContDiff ℝ 1 fun p : ℝ × X => ((θ, p.1, p.2) : P × ℝ × X) := by fun_prop
  have hDp := hD.comp hin
  have h1 : ContDiff ℝ 1 fun p : ℝ × X => fderiv ℝ (fun x' => f θ p.1 x') p.2 := by
    simp only [partial_x hd]
    exact hDp.clm_comp contDiff_const
  have h2 : ContDiff ℝ 1 fun p : ℝ × X => fderiv ℝ (fun θ' => f θ' p.1 p.2) θ := by
    simp only [partial_p hd]
    exact hDp.clm_comp contDiff_const
  obtain ⟨K1, H1⟩ := lip_near_curve h1 hy
  obtain ⟨K2, H2⟩ := lip_near_curve h2 hy
  obtain ⟨K3, H3⟩ := lip_near_curve hdg hy
  obtain ⟨K, b0, b1, b2, b3⟩ : ∃ K : ℝ, 1 ≤ K ∧ K1 ≤ K ∧ K2 ≤ K ∧ K3 ≤ K :=
    ⟨max 1 (max K1 (max K2 K3)), by simp, by simp, by simp, by simp⟩
  have hm : ∀ {a : ℝ} (x : X) (t : ℝ), a ≤ K → a * ‖x - y t‖ ≤ K * ‖x - y t‖ := fun x t h =>
    mul_le_mul_of_nonneg_right h (norm_nonneg _)
  exact ⟨K, b0, fun t ht x hx => (H1 t ht x hx).1.trans b1, fun t ht x hx => (H2 t ht x hx).1.trans b2,
    fun t ht x hx => (H1 t ht x hx).2.trans (hm x t b1), fun t ht x hx => (H2 t ht x hx).2.trans (hm x t b2),
    fun t ht x hx => (H3 t ht x hx).2.trans (hm x t b3)⟩

/-- One solve along a curve close to `y` and the exact solve along `y`. -/
theorem interp_interval {θ : P} {dg : Option (ℝ → X → (X →L[ℝ] ℝ))} {y : ℝ → X} {t0 T K : ℝ}
    (hK : CoefBounds f θ dg y t0 T K) {a b : ℝ} (ha : t0 ≤ a) (hab : a ≤ b) (hb : b ≤ T) {z : ℝ → AdjS X P}
    (hz : SolvesOn (adjointDynamics (smoothAdjoint f θ dg)) z a b) (hzy : ∀ t ∈ Icc a b, (z t).1 = y t) {M : ℝ}
    (hM : ∀ t ∈ Icc a b, ‖(z t).2.1‖ ≤ M) {curve : ℝ → X} {δ : ℝ} (hδ1 : δ ≤ 1)
    (hcurve : ∀ t ∈ Icc t0 T, ‖curve t - y t‖ ≤ δ) {w : ℝ → CotS X P}
    (hw : SolvesOn (interpDynamics (smoothAdjoint f θ dg) curve) w a b) :
    ‖w a - ((z a).2.1, (z a).2.2.1)‖ ≤
      Real.exp (K * (b - a)) * (‖w b - ((z b).2.1, (z b).2.2.1)‖ + K * (M + 1) * δ) := by
  have hK0 : 0 < K := lt_of_lt_of_le one_pos hK.one_le
  have hδ0 : 0 ≤ δ := (norm_nonneg _).trans (hcurve a ⟨ha, hab.trans hb⟩)
  have hM0 : 0 ≤ M := (norm_nonneg _).trans (hM a ⟨le_rfl, hab⟩)
  have hs : SolvesOn (fun t (_ : CotS X P) => interpDynamics (smoothAdjoint f θ dg) curve t (w t) -
      ((adjointDynamics (smoothAdjoint f θ dg) t (z t)).2.1, (adjointDynamics (smoothAdjoint f θ dg) t (z t)).2.2.1))
      (fun t => w t - ((z t).2.1, (z t).2.2.1)) a b := fun t ht =>
    (hw t ht).sub ((hz t ht).snd.fst.prodMk (hz t ht).snd.snd.fst)
  have hr := hs.reverse
  have hbd : ∀ t ∈ Icc a b, ‖interpDynamics (smoothAdjoint f θ dg) curve t (w t) -
      ((adjointDynamics (smoothAdjoint f θ dg) t (z t)).2.1, (adjointDynamics (smoothAdjoint f θ dg) t (z t)).2.2.1)‖ ≤
      K * ‖w t - ((z t).2.1, (z t).2.2.1)‖ + K * (M + 1) * δ := by
    intro t ht
    have ht' : t ∈ Icc t0 T := ⟨ha.trans ht.1, ht.2.trans hb⟩
    have hc := hcurve t ht'
    have hc1 := hc.trans hδ1
    have hn : ‖(w t).1 - (z t).2.1‖ ≤ ‖w t - ((z t).2.1, (z t).2.2.1)‖ := by
      rw [Prod.norm_def]
      exact le_max_left _ _
    have key : ∀ {E : Type} [NormedAddCommGroup E] [NormedSpace ℝ E] (D D' : E →L[ℝ] X), ‖D‖ ≤ K → ‖D - D'‖ ≤ K * δ →
        ‖(w t).1.comp D - (z t).2.1.comp D'‖ ≤ K * ‖w t - ((z t).2.1, (z t).2.2.1)‖ + K * M * δ := by
      intro E _ _ D D' h1 h2
      have e : (w t).1.comp D - (z t).2.1.comp D' = ((w t).1 - (z t).2.1).comp D + (z t).2.1.comp (D - D') := by
        ext v
        simp
      rw [e]
      refine (norm_add_le _ _).trans (add_le_add ?_ ?_)
      · refine (ContinuousLinearMap.opNorm_comp_le _ _).trans ?_
        rw [mul_comm]
        exact mul_le_mul h1 hn (norm_nonneg _) hK0.le
      · refine (ContinuousLinearMap.opNorm_comp_le _ _).trans ?_
        calc _ ≤ M * (K * δ) := mul_le_mul (hM t ht) h2 (norm_nonneg _) hM0
          _ = _ := by ring
    rw [interpDynamics_smooth, adjointDynamics_smooth, hzy t ht, Prod.mk_sub_mk, Prod.norm_def]
    have hx := key _ _ (hK.dx t ht' _ hc1) ((hK.dx_lip t ht' _ hc1).trans (mul_le_mul_of_nonneg_left hc hK0.le))
    have hp := key _ _ (hK.dp t ht' _ hc1) ((hK.dp_lip t ht' _ hc1).trans (mul_le_mul_of_nonneg_left hc hK0.le))
    have hg := (hK.dg_lip t ht' _ hc1).trans (mul_le_mul_of_nonneg_left hc hK0.le)
    refine max_le ?_ ?_
    · simp only
      rw [show ∀ p q r s : X →L[ℝ] ℝ, -p - q - (-r - s) = -((p - r) + (q - s)) by intros; abel, norm_neg]
      refine (norm_add_le _ _).trans ?_
      linarith
    · simp only
      rw [show ∀ p r : P →L[ℝ] ℝ, -p - -r = -(p - r) by intros; abel, norm_neg]
      have := mul_nonneg hK0.le hδ0
      linarith
  have hg := norm_le_gronwallBound_of_norm_deriv_right_le
    (f := fun s => w (-s) - ((z (-s)).2.1, (z (-s)).2.2.1))
    (f' := fun s => -(interpDynamics (smoothAdjoint f θ dg) curve (-s) (w (-s)) -
      ((adjointDynamics (smoothAdjoint f θ dg) (-s) (z (-s))).2.1,
        (adjointDynamics (smoothAdjoint f θ dg) (-s) (z (-s))).2.2.1)))
    (δ := ‖w b - ((z b).2.1, (z b).2.2.1)‖) (K := K) (ε := K * (M + 1) * δ)
    (a := -b) (b := -a) (fun s hs => (hr s hs).continuousWithinAt)
    (fun s hs => (hr s (Ico_subset_Icc_self hs)).mono_of_mem_nhdsWithin (Icc_mem_nhdsGE_of_mem hs)) (by simp)
    (fun s hs => by
      rw [norm_neg]
      exact hbd (-s) ⟨by linarith [hs.2], by linarith [hs.1]⟩)
    (-a) ⟨by linarith, le_rfl⟩
  rw [gronwallBound_of_K_ne_0 hK0.ne', neg_neg, show -a - -b = b - a from by ring] at hg
  refine hg.trans ?_
  have hE : 0 < Real.exp (K * (b - a)) := Real.exp_pos _
  have h1 : K * (M + 1) * δ / K ≤ K * (M + 1) * δ := div_le_self (by positivity) hK.one_le
  have h2 : 0 ≤ K * (M + 1) * δ / K := by positivity
  nlinarith

/-- The loops of the interpolated and of the exact adjoint side by side. -/
theorem interpLoop_near (hf : ContDiff ℝ 1 fun q : P × ℝ × X => f q.1 q.2.1 q.2.2) {θ : P}
    {dg : Option (ℝ → X → (X →L[ℝ] ℝ))} {y : ℝ → X} {t0 T K : ℝ} (hK : CoefBounds f θ dg y t0 T K)
    (hy : SolvesOn (f θ) y t0 T) {solve} (hsolve : ExactAlong solve (smoothAdjoint f θ dg) y t0 T) {ts : List ℝ}
    (hinc : ts.Pairwise (· < ·)) (hts : ∀ t ∈ ts, t ∈ Icc t0 T) {gs : List (X →L[ℝ] ℝ)} {gt : List ℝ}
    (hgs : gs.length = ts.length) (hgt : gt.length = ts.length) :
    ∀ (i : ℕ) (Z : AdjS X P) (d : ℝ) (hi : i < ts.length), Z.1 = y ts[i] →
      ∃ Z' d', adjointLoop solve (smoothAdjoint f θ dg) ts gt gs i Z d = .ok (Z', d') ∧
      ∃ C, 0 ≤ C ∧ ∀ (δ ε η : ℝ) (curve : ℝ → X), δ ≤ 1 → 0 ≤ ε → ε ≤ 1 → (∀ t ∈ Icc t0 T, ‖curve t - y t‖ ≤ δ) →
        ∀ solve', InterpSolves ε solve' (smoothAdjoint f θ dg) curve t0 T → ∀ (gx : List (X →L[ℝ] ℝ)),
        (∀ j < i, ∃ g g', gx[j]? = some g ∧ gs[j]? = some g' ∧ ‖g - g'‖ ≤ η) → ∀ B : CotS X P,
        ‖B - (Z.2.1, Z.2.2.1)‖ ≤ η →
        ∃ B', interpLoop solve' (smoothAdjoint f θ dg) curve ts gx i B = .ok B' ∧
          ‖B' - (Z'.2.1, Z'.2.2.1)‖ ≤ C * (δ + ε + η) := by
  have : ProperSpace X := FiniteDimensional.proper ℝ X
  have hd : Differentiable ℝ fun q : P × ℝ × X => f q.1 q.2.1 q.2.2 := hf.differentiable (by simp)
  have hfx : Continuous fun p : ℝ × X => fderiv ℝ (f θ p.1) p.2 := by
    have e : (fun p : ℝ × X => fderiv ℝ (f θ p.1) p.2) = fun p : ℝ × X => fderiv ℝ (fun x' => f θ p.1 x') p.2 := rfl
    rw [e]
    simp only [partial_x hd]
    have h1 : Continuous fun p : ℝ × X => fderiv ℝ (fun q : P × ℝ × X => f q.1 q.2.1 q.2.2) (θ, p.1, p.2) :=
      (hf.continuous_fderiv (by simp)).comp (by fun_prop)
    exact h1.clm_comp continuous_const
  have hfd : ∀ t, Differentiable ℝ (f θ t) := fun t => hd.comp (by fun_prop : Differentiable ℝ fun x : X => ((θ, t, x) : P × ℝ × X))
  intro i
  induction i with
  | zero =>
    intro Z d hi hZ
    refine ⟨Z, d, rfl, 1, zero_le_one, ?_⟩
    intro δ ε η curve _ hε _ hcurve solve' _ gx _ B hB
    have hδ0 : 0 ≤ δ := (norm_nonneg _).trans (hcurve _ (hts _ (List.getElem_mem hi)))
    exact ⟨B, rfl, by linarith⟩
  | succ i ih =>
    intro Z d hi hZ
    have hi' : i < ts.length := by omega
    have hlt : ts[i] < ts[i + 1] := List.pairwise_iff_getElem.1 hinc i (i + 1) hi' hi (by omega)
    have hLo := hts _ (List.getElem_mem hi')
    have hHi := hts _ (List.getElem_mem hi)
    obtain ⟨z, tr, hz0, hz, hrun⟩ := hsolve Z ts[i + 1] ts[i] hLo.1 hlt hHi.2 hZ
    have hy' : SolvesOn (f θ) y ts[i] ts[i + 1] := hy.mono hLo.1 hHi.2
    have hz1 : SolvesOn (f θ) (fun t => (z t).1) ts[i] ts[i + 1] := fun t ht => (hz t ht).fst
    have heq : EqOn (fun t => (z t).1) y (Icc ts[i] ts[i + 1]) :=
      backward_unique hfx hfd hz1 hy' (by rw [← hZ, ← hz0])
    have hgi : i < gs.length := by omega
    have hgti : i < gt.length := by omega
    obtain ⟨Z', d', hloop, C, hC, hnear⟩ := ih ((z ts[i]).1, (z ts[i]).2.1 + gs[i], (z ts[i]).2.2.1, (z ts[i]).2.2.2 - gt[i])
      ((z ts[i]).2.1 (f θ ts[i + 1] (z ts[i]).1)) hi' (heq ⟨le_rfl, hlt.le⟩)
    have hzc : ContinuousOn (fun t => (z t).2.1) (Icc ts[i] ts[i + 1]) := fun t ht => (hz t ht).continuousWithinAt.snd.fst
    obtain ⟨M, hM⟩ := isCompact_Icc.exists_bound_of_continuousOn hzc
    have hM0 : 0 ≤ M := (norm_nonneg _).trans (hM ts[i] ⟨le_rfl, hlt.le⟩)
    obtain ⟨E, hE⟩ : ∃ E, Real.exp (K * (ts[i + 1] - ts[i])) = E := ⟨_, rfl⟩
    have hE0 : 0 < E := hE ▸ Real.exp_pos _
    have hK0 : 0 < K := lt_of_lt_of_le one_pos hK.one_le
    refine ⟨Z', d', ?_, C * (E + E * (K * (M + 1)) + (1 + ‖(Z.2.1, Z.2.2.1)‖) + 3), by positivity, ?_⟩
    · rw [adjointLoop]
      simp only [bind, Except.bind, pure, Except.pure, getItem, List.getElem?_eq_getElem hi',
        List.getElem?_eq_getElem hi, List.getElem?_eq_getElem hgi, List.getElem?_eq_getElem hgti] at *
      rw [hrun]
      exact hloop
    · intro δ ε η curve hδ1 hε0 hε1 hcurve solve' hs' gx hgx B hB
      have hδ0 : 0 ≤ δ := (norm_nonneg _).trans (hcurve _ hLo)
      have hη0 : 0 ≤ η := (norm_nonneg _).trans hB
      obtain ⟨w, B', tr', hw0, hw, hB', hrun'⟩ := hs' B ts[i + 1] ts[i] hLo.1 hlt hHi.2
      have hint := interp_interval hK hLo.1 hlt.le hHi.2 hz heq hM hδ1 hcurve hw
      rw [hw0, hz0, hE] at hint
      obtain ⟨g, g', hg, hg', hgg⟩ := hgx i (by omega)
      rw [List.getElem?_eq_getElem hgi, Option.some_inj] at hg'
      subst hg'
      have hBn : ‖B‖ ≤ ‖(Z.2.1, Z.2.2.1)‖ + η := by
        have : ‖B‖ ≤ ‖B - (Z.2.1, Z.2.2.1)‖ + ‖(Z.2.1, Z.2.2.1)‖ := by
          simpa using norm_add_le (B - (Z.2.1, Z.2.2.1)) (Z.2.1, Z.2.2.1)
        linarith
      obtain ⟨N, hN⟩ : ∃ N, ‖(Z.2.1, Z.2.2.1)‖ = N := ⟨_, rfl⟩
      have hN0 : 0 ≤ N := hN ▸ norm_nonneg _
      rw [hN] at hBn ⊢
      have hdiff : ‖((B'.1 + g, B'.2) : CotS X P) - ((z ts[i]).2.1 + gs[i], (z ts[i]).2.2.1)‖ ≤
          (E + E * (K * (M + 1)) + (1 + N) + 2) * (δ + ε + η) := by
        have e : ((B'.1 + g, B'.2) : CotS X P) - ((z ts[i]).2.1 + gs[i], (z ts[i]).2.2.1) =
            (B' - w ts[i]) + (w ts[i] - ((z ts[i]).2.1, (z ts[i]).2.2.1)) + (g - gs[i], 0) := by
          ext <;> simp <;> ring
        rw [e]
        have h0 : ‖((g - gs[i], 0) : CotS X P)‖ ≤ η := by
          rw [Prod.norm_def, norm_zero]
          exact max_le hgg hη0
        have h1 := norm_add_le ((B' - w ts[i]) + (w ts[i] - ((z ts[i]).2.1, (z ts[i]).2.2.1))) (g - gs[i], 0)
        have h2 := norm_add_le (B' - w ts[i]) (w ts[i] - ((z ts[i]).2.1, (z ts[i]).2.2.1))
        have h3 : ε * (1 + ‖B‖) ≤ (1 + N) * ε + η := by
          have : ε * (1 + ‖B‖) ≤ ε * (1 + (N + η)) := mul_le_mul_of_nonneg_left (by linarith) hε0
          have := mul_le_mul_of_nonneg_right hε1 hη0
          linarith
        have h4 : E * (‖B - (Z.2.1, Z.2.2.1)‖ + K * (M + 1) * δ) ≤ E * η + E * (K * (M + 1)) * δ := by
          have := mul_le_mul_of_nonneg_left hB hE0.le
          linarith
        have hq : 0 ≤ E * (K * (M + 1)) := by positivity
        have p1 := mul_nonneg hE0.le hδ0
        have p2 := mul_nonneg hE0.le hε0
        have p3 := mul_nonneg hq hε0
        have p4 := mul_nonneg hq hη0
        have p5 := mul_nonneg hN0 hδ0
        have p6 := mul_nonneg hN0 hη0
        linarith
      obtain ⟨Q, hQ⟩ : ∃ Q, E + E * (K * (M + 1)) + (1 + N) + 2 = Q := ⟨_, rfl⟩
      rw [hQ] at hdiff
      have hQ1 : 1 ≤ Q := by rw [← hQ]; have : 0 ≤ E * (K * (M + 1)) := by positivity
                             linarith
      have hsum : 0 ≤ δ + ε + η := by linarith
      obtain ⟨B'', hl, hres⟩ := hnear δ ε (Q * (δ + ε + η)) curve hδ1 hε0 hε1 hcurve solve' hs' gx
        (fun j hj => by
          obtain ⟨g1, g2, e1, e2, e3⟩ := hgx j (by omega)
          refine ⟨g1, g2, e1, e2, e3.trans ?_⟩
          have := mul_le_mul_of_nonneg_right hQ1 hsum
          linarith)
        (B'.1 + g, B'.2) hdiff
      refine ⟨B'', ?_, hres.trans ?_⟩
      · rw [interpLoop]
        simp only [bind, Except.bind, pure, Except.pure, getItem, getLastItem, List.getElem?_eq_getElem hi',
          List.getElem?_eq_getElem hi, hg] at *
        rw [hrun']
        simpa using hl
      · rw [show E + E * (K * (M + 1)) + (1 + N) + 3 = Q + 1 by rw [← hQ]; ring, mul_assoc]
        refine mul_le_mul_of_nonneg_left ?_ hC
        linarith

/-- The interpolated backward pass from cotangents close to the true ones. -/
theorem interp_core (hf : ContDiff ℝ 2 fun q : P × ℝ × X => f q.1 q.2.1 q.2.2) {θ : P} {x0 : X}
    {dg : Option (ℝ → X → (X →L[ℝ] ℝ))} (hdg : ContDiff ℝ 1 fun p : ℝ × X => lossCot dg p.1 p.2)
    {G : ℝ → X → ℝ} (hGc : Continuous fun p : ℝ × X => G p.1 p.2) (hG : ∀ t x, HasFDerivAt (G t) (lossCot dg t x) x)
    {t0 T : ℝ} (Y : P × X → ℝ → X) (hY : ∀ᶠ q in 𝓝 (θ, x0), Y q t0 = q.2 ∧ SolvesOn (f q.1) (Y q) t0 T)
    (rest : List ℝ) (hinc : (t0 :: rest).Pairwise (· < ·)) (hlast : (t0 :: rest).getLast? = some T) (ℓ : List (X → ℝ))
    (hℓ : ∀ l ∈ ℓ, Differentiable ℝ l) (hlen : ℓ.length = (t0 :: rest).length) :
    ∃ D : P × X →L[ℝ] ℝ, HasFDerivAt (fun q => (List.zipWith (fun l s => l (Y q s)) ℓ (t0 :: rest)).sum +
        ∫ s in t0..T, G s (Y q s)) D (θ, x0) ∧
      ∃ C, 0 ≤ C ∧ ∀ (δ ε η : ℝ) (curve : ℝ → X), δ ≤ 1 → 0 ≤ ε → ε ≤ 1 →
        (∀ t ∈ Icc t0 T, ‖curve t - Y (θ, x0) t‖ ≤ δ) →
        ∀ (tSol : List ℝ) (sol : List X) (spline), sol ≠ [] → spline tSol sol = .ok curve →
        ∀ solve, InterpSolves ε solve (smoothAdjoint f θ dg) curve t0 T → ∀ (gx : List (X →L[ℝ] ℝ)),
        (∀ j < rest.length, ∃ g l s, gx[j]? = some g ∧ ℓ[j]? = some l ∧ (t0 :: rest)[j]? = some s ∧
          ‖g - fderiv ℝ l (Y (θ, x0) s)‖ ≤ η) →
        (∃ g l, gx.getLast? = some g ∧ ℓ.getLast? = some l ∧ ‖g - fderiv ℝ l (Y (θ, x0) T)‖ ≤ η) →
        ∃ μ lam, interpBackward solve spline (smoothAdjoint f θ dg) (t0 :: rest) tSol sol gx = .ok (μ, lam) ∧
          ‖μ.coprod lam - D‖ ≤ C * (δ + ε + η) := by
  have hf1 : ContDiff ℝ 1 fun q : P × ℝ × X => f q.1 q.2.1 q.2.2 := hf.of_le (by norm_num)
  have hd : Differentiable ℝ fun q : P × ℝ × X => f q.1 q.2.1 q.2.2 := hf1.differentiable (by simp)
  have hy : SolvesOn (f θ) (Y (θ, x0)) t0 T := hY.self_of_nhds.2
  have hfc : Continuous fun p : ℝ × P × X => fderiv ℝ (fun q : P × X => f q.1 p.1 q.2) p.2 := by
    have e : (fun p : ℝ × P × X => fderiv ℝ (fun q : P × X => f q.1 p.1 q.2) p.2) = fun p =>
        (fderiv ℝ (fun q : P × ℝ × X => f q.1 q.2.1 q.2.2) (p.2.1, p.1, p.2.2)).comp
          ((ContinuousLinearMap.fst ℝ P X).prod ((0 : P × X →L[ℝ] ℝ).prod (ContinuousLinearMap.snd ℝ P X))) := by
      funext p
      exact (partial_q hd p.1 p.2).fderiv
    rw [e]
    have h1 : Continuous fun p : ℝ × P × X => fderiv ℝ (fun q : P × ℝ × X => f q.1 q.2.1 q.2.2) (p.2.1, p.1, p.2.2) :=
      (hf1.continuous_fderiv (by simp)).comp (by fun_prop : Continuous fun p : ℝ × P × X => ((p.2.1, p.1, p.2.2) : P × ℝ × X))
    exact h1.clm_comp continuous_const
  obtain ⟨solve, hsolve⟩ := exists_exact_solve hf1 θ hdg.continuous hy
  obtain ⟨μ, lam, d, d', hrun, hD⟩ := C83_frechet hfc (fun t q => (partial_q hd t q).differentiableAt) hdg.continuous hGc hG Y
    hY hsolve rest hinc hlast ℓ hℓ hlen (List.replicate (t0 :: rest).length 0) (by simp)
  refine ⟨μ.coprod lam, hD, ?_⟩
  obtain ⟨K, hK⟩ := exists_coefBounds hf θ hdg (fun t ht => (hy t ht).continuousWithinAt)
  generalize hyd : Y (θ, x0) = y at *
  set ts := t0 :: rest with hts
  have hpos : 0 < ts.length := by simp [hts]
  have htne : ts ≠ [] := by simp [hts]
  have hbi : ts[ts.length - 1] = T := by
    rw [List.getLast?_eq_some_getLast htne] at hlast
    rw [← Option.some.inj hlast, List.getLast_eq_getElem]
  have hmem : ∀ t ∈ ts, t ∈ Icc t0 T := by
    intro t ht
    obtain ⟨j, hj, rfl⟩ := List.getElem_of_mem ht
    constructor
    · rcases Nat.eq_zero_or_pos j with rfl | hj0
      · simp [hts]
      · have := List.pairwise_iff_getElem.1 hinc 0 j hpos hj hj0
        simpa [hts] using this.le
    · rw [← hbi]
      rcases Nat.lt_or_ge j (ts.length - 1) with hlt | hge
      · exact (List.pairwise_iff_getElem.1 hinc j (ts.length - 1) hj (by omega) hlt).le
      · have : j = ts.length - 1 := by omega
        subst this
        exact le_rfl
  set gs := List.zipWith (fun l s => fderiv ℝ l (y s)) ℓ ts with hgs
  have hgl : gs.length = ts.length := by simp [hgs, hlen]
  obtain ⟨lL, hlL⟩ : ∃ l, ℓ[ts.length - 1]? = some l := ⟨_, List.getElem?_eq_getElem (by omega)⟩
  have hlL' : ℓ.getLast? = some lL := by rw [List.getLast?_eq_getElem?, hlen, hlL]
  have hgL : gs.getLast? = some (fderiv ℝ lL (y T)) := by
    rw [List.getLast?_eq_getElem?, hgl, hgs, List.getElem?_zipWith, hlL, List.getElem?_eq_getElem (by omega), hbi]
  obtain ⟨Z', e', hloop, C, hC, hnear⟩ := interpLoop_near hf1 hK hy hsolve hinc hmem hgl
    (gt := List.replicate ts.length 0) (by simp) (ts.length - 1)
    (y T, fderiv ℝ lL (y T), 0, fderiv ℝ lL (y T) (f θ T (y T))) (fderiv ℝ lL (y T) (f θ T (y T))) (by omega) (by simp [hbi])
  have hZ : Z'.2.1 = lam ∧ Z'.2.2.1 = μ := by
    unfold adjointBackward at hrun
    have hml : (ts.map y).getLast? = some (y T) := by rw [List.getLast?_map, hlast]; rfl
    simp only [getLastItem, hml, hlast, hgL, pure_bind] at hrun
    change (adjointLoop solve (smoothAdjoint f θ dg) ts (List.replicate ts.length 0) gs (ts.length - 1)
      (y T, fderiv ℝ lL (y T), 0, fderiv ℝ lL (y T) (f θ T (y T))) (fderiv ℝ lL (y T) (f θ T (y T))) >>= _) = _ at hrun
    rw [hloop] at hrun
    simp only [bind, Except.bind, pure, Except.pure, Except.ok.injEq, Prod.mk.injEq] at hrun
    exact ⟨hrun.2.1, hrun.1⟩
  refine ⟨2 * C, by positivity, ?_⟩
  intro δ ε η curve hδ1 hε0 hε1 hcurve tSol sol spline hsol hspl solve' hs' gx hgx hgxL
  obtain ⟨gL, l, hg1, hg2, hg3⟩ := hgxL
  rw [hlL', Option.some_inj] at hg2
  subst hg2
  have hη0 : 0 ≤ η := (norm_nonneg _).trans hg3
  obtain ⟨B', hl, hres⟩ := hnear δ ε η curve hδ1 hε0 hε1 hcurve solve' hs' gx (by
      intro j hj
      obtain ⟨g, l, s, e1, e2, e3, e4⟩ := hgx j (by simpa [hts] using hj)
      refine ⟨g, fderiv ℝ l (y s), e1, ?_, e4⟩
      rw [hgs, List.getElem?_zipWith, e2, e3]) (gL, 0) (by
      rw [Prod.mk_sub_mk, sub_self, Prod.norm_def, norm_zero]
      exact max_le hg3 hη0)
  refine ⟨B'.2, B'.1, ?_, ?_⟩
  · unfold interpBackward
    simp only [getLastItem, List.getLast?_eq_some_getLast hsol, hg1, hspl, bind, Except.bind, pure, Except.pure]
    rw [hl]
  · rw [hZ.1, hZ.2] at hres
    have h1 : ‖B'.1 - lam‖ ≤ C * (δ + ε + η) := le_trans (by rw [Prod.norm_def]; exact le_max_left _ _) hres
    have h2 : ‖B'.2 - μ‖ ≤ C * (δ + ε + η) := le_trans (by rw [Prod.norm_def]; exact le_max_right _ _) hres
    have e : B'.2.coprod B'.1 - μ.coprod lam = (B'.2 - μ).coprod (B'.1 - lam) := by
      ext <;> simp
    rw [e]
    have hs : 0 ≤ C * (δ + ε + η) := (norm_nonneg _).trans hres
    refine ContinuousLinearMap.opNorm_le_bound _ (by linarith) fun v => ?_
    rw [ContinuousLinearMap.coprod_apply]
    refine (norm_add_le _ _).trans ?_
    have a1 := (B'.2 - μ).le_opNorm v.1
    have a2 := (B'.1 - lam).le_opNorm v.2
    have b1 : ‖v.1‖ ≤ ‖v‖ := norm_fst_le v
    have b2 : ‖v.2‖ ≤ ‖v‖ := norm_snd_le v
    have c1 := mul_le_mul h2 b1 (norm_nonneg _) hs
    have c2 := mul_le_mul h1 b2 (norm_nonneg _) hs
    linarith

/-- **C125.** The gradient computed by the interpolated adjoint with a fixed-step solver (whose output times are `t_span`),
for losses `ℓ_i` on all output points and an integral loss. There is a constant `C` such that, if the computed states and
the spline through them are within `δ` of the true trajectory and the solves of the backward pass have relative error at
most `ε`, the returned `μ`, `λ` are within `C (δ + ε)` of the gradient of `Σ ℓ_i (Y q t_i) + ∫ G(t, Y q t) dt` with respect
to parameters and initial state. In particular exact solves along the true trajectory give the exact gradient. -/
theorem C125_gradient (hf : ContDiff ℝ 2 fun q : P × ℝ × X => f q.1 q.2.1 q.2.2) {θ : P} {x0 : X}
    {dg : Option (ℝ → X → (X →L[ℝ] ℝ))} (hdg : ContDiff ℝ 1 fun p : ℝ × X => lossCot dg p.1 p.2)
    {G : ℝ → X → ℝ} (hGc : Continuous fun p : ℝ × X => G p.1 p.2) (hG : ∀ t x, HasFDerivAt (G t) (lossCot dg t x) x)
    {t0 T : ℝ} (Y : P × X → ℝ → X) (hY : ∀ᶠ q in 𝓝 (θ, x0), Y q t0 = q.2 ∧ SolvesOn (f q.1) (Y q) t0 T)
    (rest : List ℝ) (hinc : (t0 :: rest).Pairwise (· < ·)) (hlast : (t0 :: rest).getLast? = some T) (ℓ : List (X → ℝ))
    (hℓ : ∀ l ∈ ℓ, ContDiff ℝ 2 l) (hlen : ℓ.length = (t0 :: rest).length) :
    ∃ D : P × X →L[ℝ] ℝ, HasFDerivAt (fun q => (List.zipWith (fun l s => l (Y q s)) ℓ (t0 :: rest)).sum +
        ∫ s in t0..T, G s (Y q s)) D (θ, x0) ∧
      ∃ C, ∀ (δ ε : ℝ) (curve : ℝ → X), δ ≤ 1 → 0 ≤ ε → ε ≤ 1 → (∀ t ∈ Icc t0 T, ‖curve t - Y (θ, x0) t‖ ≤ δ) →
        ∀ (sol : List X) (spline), sol.length = (t0 :: rest).length →
        (∀ (j : ℕ) (x : X) (s : ℝ), sol[j]? = some x → (t0 :: rest)[j]? = some s → ‖x - Y (θ, x0) s‖ ≤ δ) →
        spline (t0 :: rest) sol = .ok curve →
        ∀ solve, InterpSolves ε solve (smoothAdjoint f θ dg) curve t0 T →
        ∃ μ lam, interpBackward solve spline (smoothAdjoint f θ dg) (t0 :: rest) (t0 :: rest) sol
            (List.zipWith (fun l x => fderiv ℝ l x) ℓ sol) = .ok (μ, lam) ∧
          ‖μ.coprod lam - D‖ ≤ C * (δ + ε) := by
  have hy : ContinuousOn (Y (θ, x0)) (Icc t0 T) := fun t ht => (hY.self_of_nhds.2 t ht).continuousWithinAt
  obtain ⟨D, hD, C, hC, hmain⟩ := interp_core hf hdg hGc hG Y hY rest hinc hlast ℓ
    (fun l hl => (hℓ l hl).differentiable (by simp)) hlen
  refine ⟨D, hD, ?_⟩
  obtain ⟨K, hK0, hK⟩ : ∃ K : ℝ, 0 ≤ K ∧ ∀ l ∈ ℓ, ∀ t ∈ Icc t0 T, ∀ x, ‖x - Y (θ, x0) t‖ ≤ 1 →
      ‖fderiv ℝ l x - fderiv ℝ l (Y (θ, x0) t)‖ ≤ K * ‖x - Y (θ, x0) t‖ := by
    clear hlen hmain hD
    induction ℓ with
    | nil => exact ⟨0, le_rfl, by simp⟩
    | cons l ℓ ih =>
      obtain ⟨K1, hK10, hK1⟩ := ih (fun l' h => hℓ l' (by simp [h]))
      have hg : ContDiff ℝ 1 fun p : ℝ × X => fderiv ℝ l p.2 :=
        ((hℓ l (by simp)).fderiv_right (m := 1) (by norm_num)).comp contDiff_snd
      obtain ⟨K2, hK2⟩ := lip_near_curve hg hy
      refine ⟨max K1 K2, hK10.trans (le_max_left _ _), ?_⟩
      intro l' hl' t ht x hx
      rcases List.mem_cons.1 hl' with rfl | h
      · exact (hK2 t ht x hx).2.trans (mul_le_mul_of_nonneg_right (le_max_right _ _) (norm_nonneg _))
      · exact (hK1 l' h t ht x hx).trans (mul_le_mul_of_nonneg_right (le_max_left _ _) (norm_nonneg _))
  refine ⟨C * (1 + K), ?_⟩
  intro δ ε curve hδ1 hε0 hε1 hcurve sol spline hsl hsol hspl solve hs
  have htne : t0 :: rest ≠ [] := by simp
  have hn0 : 0 < (t0 :: rest).length := by simp
  have hδ0 : 0 ≤ δ := by
    have : (t0 :: rest)[0]? = some t0 := rfl
    exact (norm_nonneg _).trans (hsol 0 (sol[0]'(by omega)) t0 (List.getElem?_eq_getElem _) this)
  have hbi : (t0 :: rest)[(t0 :: rest).length - 1]? = some T := by rw [← List.getLast?_eq_getElem?, hlast]
  have hmem : ∀ (j : ℕ) (s : ℝ), (t0 :: rest)[j]? = some s → s ∈ Icc t0 T := by
    intro j s hj
    obtain ⟨hjl, hjs⟩ := List.getElem?_eq_some_iff.1 hj
    obtain ⟨hTl, hTs⟩ := List.getElem?_eq_some_iff.1 hbi
    rw [← hjs]
    constructor
    · rcases Nat.eq_zero_or_pos j with rfl | hj0
      · simp
      · exact (List.pairwise_iff_getElem.1 hinc 0 j hn0 hjl hj0).le
    · rcases Nat.lt_or_ge j ((t0 :: rest).length - 1) with hlt | hge
      · rw [← hTs]
        exact (List.pairwise_iff_getElem.1 hinc j _ hjl hTl hlt).le
      · have : j = (t0 :: rest).length - 1 := by omega
        subst this
        rw [hTs]
  have hgrad : ∀ (j : ℕ) (s : ℝ), (t0 :: rest)[j]? = some s → ∃ g l,
      (List.zipWith (fun l x => fderiv ℝ l x) ℓ sol)[j]? = some g ∧ ℓ[j]? = some l ∧
      ‖g - fderiv ℝ l (Y (θ, x0) s)‖ ≤ K * δ := by
    intro j s hj
    have hjl := (List.getElem?_eq_some_iff.1 hj).1
    have h1 : j < ℓ.length := by omega
    have h2 : j < sol.length := by omega
    have hx := hsol j sol[j] s (List.getElem?_eq_getElem h2) hj
    refine ⟨fderiv ℝ ℓ[j] sol[j], ℓ[j], ?_, List.getElem?_eq_getElem h1, ?_⟩
    · rw [List.getElem?_zipWith, List.getElem?_eq_getElem h1, List.getElem?_eq_getElem h2]
    · exact (hK _ (List.getElem_mem h1) s (hmem j s hj) _ (hx.trans hδ1)).trans (mul_le_mul_of_nonneg_left hx hK0)
  obtain ⟨μ, lam, hrun, hres⟩ := hmain δ ε (K * δ) curve hδ1 hε0 hε1 hcurve (t0 :: rest) sol spline
    (by rw [← List.length_pos_iff]; omega) hspl solve hs _ (by
      intro j hj
      obtain ⟨s, hjs⟩ : ∃ s, (t0 :: rest)[j]? = some s := ⟨_, List.getElem?_eq_getElem (by simp; omega)⟩
      obtain ⟨g, l, e1, e2, e3⟩ := hgrad j s hjs
      exact ⟨g, l, s, e1, e2, hjs, e3⟩) (by
      obtain ⟨g, l, e1, e2, e3⟩ := hgrad _ _ hbi
      refine ⟨g, l, ?_, ?_, e3⟩
      · rw [List.getLast?_eq_getElem?, ← e1]
        simp [hlen, hsl]
      · rw [List.getLast?_eq_getElem?, ← e2, hlen])
  refine ⟨μ, lam, hrun, hres.trans ?_⟩
  rw [mul_assoc]
  refine mul_le_mul_of_nonneg_left ?_ hC
  have := mul_nonneg hK0 hε0
  linarith

/-- **C125**, adaptive solvers, what holds: the output times `t_sol` are then all evaluation times, and the rows of
`grad_output` read by the loop are those with the indices of `t_span`. If the loss only depends on the last row, the gradient
is right, with the same error bound. Missing, and false (`C125_rows_refuted`): losses on the other rows. -/
theorem C125_terminal_partial (hf : ContDiff ℝ 2 fun q : P × ℝ × X => f q.1 q.2.1 q.2.2) {θ : P} {x0 : X}
    {dg : Option (ℝ → X → (X →L[ℝ] ℝ))} (hdg : ContDiff ℝ 1 fun p : ℝ × X => lossCot dg p.1 p.2)
    {G : ℝ → X → ℝ} (hGc : Continuous fun p : ℝ × X => G p.1 p.2) (hG : ∀ t x, HasFDerivAt (G t) (lossCot dg t x) x)
    {t0 T : ℝ} (Y : P × X → ℝ → X) (hY : ∀ᶠ q in 𝓝 (θ, x0), Y q t0 = q.2 ∧ SolvesOn (f q.1) (Y q) t0 T)
    (rest : List ℝ) (hinc : (t0 :: rest).Pairwise (· < ·)) (hlast : (t0 :: rest).getLast? = some T) (ℓ : X → ℝ)
    (hℓ : ContDiff ℝ 2 ℓ) :
    ∃ D : P × X →L[ℝ] ℝ, HasFDerivAt (fun q => ℓ (Y q T) + ∫ s in t0..T, G s (Y q s)) D (θ, x0) ∧
      ∃ C, ∀ (δ ε : ℝ) (curve : ℝ → X), δ ≤ 1 → 0 ≤ ε → ε ≤ 1 → (∀ t ∈ Icc t0 T, ‖curve t - Y (θ, x0) t‖ ≤ δ) →
        ∀ (tSol : List ℝ) (sol : List X) (xT : X) (spline), (t0 :: rest).length ≤ sol.length + 1 → ‖xT - Y (θ, x0) T‖ ≤ δ →
        spline tSol (sol ++ [xT]) = .ok curve →
        ∀ solve, InterpSolves ε solve (smoothAdjoint f θ dg) curve t0 T →
        ∃ μ lam, interpBackward solve spline (smoothAdjoint f θ dg) (t0 :: rest) tSol (sol ++ [xT])
            (List.replicate sol.length 0 ++ [fderiv ℝ ℓ xT]) = .ok (μ, lam) ∧
          ‖μ.coprod lam - D‖ ≤ C * (δ + ε) := by
  have hy : ContinuousOn (Y (θ, x0)) (Icc t0 T) := fun t ht => (hY.self_of_nhds.2 t ht).continuousWithinAt
  have hdiff : Differentiable ℝ ℓ := hℓ.differentiable (by simp)
  have ht0T : t0 ≤ T := by
    obtain ⟨l, hl⟩ := List.getLast?_eq_some_iff.1 hlast
    cases l with
    | nil => simp at hl; exact hl.1.le
    | cons a l =>
      simp at hl
      have := (List.pairwise_cons.1 hinc).1 T (by simp [hl.2])
      exact this.le
  obtain ⟨D, hD, C, hC, hmain⟩ := interp_core hf hdg hGc hG Y hY rest hinc hlast
    (List.replicate rest.length (fun _ => 0) ++ [ℓ]) (by
      intro l hl
      rcases List.mem_append.1 hl with h | h
      · rw [(List.mem_replicate.1 h).2]; exact differentiable_const 0
      · rw [List.mem_singleton.1 h]; exact hdiff) (by simp)
  have hsum : ∀ q, (List.zipWith (fun l s => l (Y q s)) (List.replicate rest.length (fun _ => (0 : ℝ)) ++ [ℓ]) (t0 :: rest)).sum =
      ℓ (Y q T) := by
    intro q
    obtain ⟨l, hl⟩ := List.getLast?_eq_some_iff.1 hlast
    have hll : rest.length = l.length := by
      have := congrArg List.length hl
      simpa using this
    rw [hl, hll, List.zipWith_append (by simp)]
    simp only [List.zipWith_cons_cons, List.zipWith_nil_left, List.sum_append, List.sum_cons, List.sum_nil, add_zero]
    rw [List.sum_eq_zero, zero_add]
    intro v hv
    obtain ⟨j, hj, rfl⟩ := List.getElem_of_mem hv
    simp
  refine ⟨D, by simpa only [hsum] using hD, ?_⟩
  have hg : ContDiff ℝ 1 fun p : ℝ × X => fderiv ℝ ℓ p.2 := (hℓ.fderiv_right (m := 1) (by norm_num)).comp contDiff_snd
  obtain ⟨K, hK⟩ := lip_near_curve hg hy
  have hK0 : 0 ≤ K := (norm_nonneg _).trans (hK T ⟨ht0T, le_rfl⟩ _ (by simp : ‖Y (θ, x0) T - Y (θ, x0) T‖ ≤ 1)).1
  refine ⟨C * (1 + K), ?_⟩
  intro δ ε curve hδ1 hε0 hε1 hcurve tSol sol xT spline hsl hxT hspl solve hs
  have hδ0 : 0 ≤ δ := (norm_nonneg _).trans hxT
  simp only [List.length_cons, Nat.add_le_add_iff_right] at hsl
  obtain ⟨μ, lam, hrun, hres⟩ := hmain δ ε (K * δ) curve hδ1 hε0 hε1 hcurve tSol (sol ++ [xT]) spline (by simp) hspl solve hs
    (List.replicate sol.length 0 ++ [fderiv ℝ ℓ xT]) (by
      intro j hj
      refine ⟨0, fun _ => 0, (t0 :: rest)[j]'(by simp; omega), ?_, ?_, List.getElem?_eq_getElem _, ?_⟩
      · rw [List.getElem?_append_left (by simp; omega), List.getElem?_replicate, if_pos (by omega)]
      · rw [List.getElem?_append_left (by simp; omega), List.getElem?_replicate, if_pos (by omega)]
      · simp
        positivity) ⟨fderiv ℝ ℓ xT, ℓ, by simp, by simp, by
      exact ((hK T ⟨ht0T, le_rfl⟩ xT (hxT.trans hδ1)).2).trans (mul_le_mul_of_nonneg_left hxT hK0)⟩
  refine ⟨μ, lam, hrun, hres.trans ?_⟩
  rw [mul_assoc]
  refine mul_le_mul_of_nonneg_left ?_ hC
  have := mul_nonneg hK0 hε0
  linarith

/-- Exact solves of the adjoint equation along a trajectory exist. -/
theorem exists_interp_solve (hf : ContDiff ℝ 1 fun q : P × ℝ × X => f q.1 q.2.1 q.2.2) (θ : P)
    {dg : Option (ℝ → X → (X →L[ℝ] ℝ))} (hdg : Continuous fun p : ℝ × X => lossCot dg p.1 p.2) {y : ℝ → X} {a b : ℝ}
    (hy : SolvesOn (f θ) y a b) : ∃ solve, InterpSolves 0 solve (smoothAdjoint f θ dg) y a b := by
  classical
  refine ⟨fun _ A ts => match ts with
    | [tHi, tLo] => if h : ∃ z : ℝ → CotS X P, z tHi = A ∧ SolvesOn (interpDynamics (smoothAdjoint f θ dg) y) z tLo tHi then
        .ok ([], [A, Classical.choose h tLo]) else .error .runtimeError
    | _ => .error .runtimeError, ?_⟩
  intro A tHi tLo h1 h2 h3
  obtain ⟨z, hz0, hz, hzy⟩ := exists_adjoint_solution hf θ hdg h2.le (hy.mono h1 h3)
    (y tHi, A.1, A.2, 0) rfl
  have h : ∃ z : ℝ → CotS X P, z tHi = A ∧ SolvesOn (interpDynamics (smoothAdjoint f θ dg) y) z tLo tHi := by
    refine ⟨fun t => ((z t).2.1, (z t).2.2.1), by simp [hz0], fun t ht => ?_⟩
    have h' := hz t ht
    have e1 : HasDerivWithinAt (fun t => (z t).2) (adjointDynamics (smoothAdjoint f θ dg) t (z t)).2 (Icc tLo tHi) t :=
      (ContinuousLinearMap.snd ℝ X ((X →L[ℝ] ℝ) × (P →L[ℝ] ℝ) × ℝ)).hasFDerivAt.comp_hasDerivWithinAt t h'
    have e2 := (ContinuousLinearMap.fst ℝ (X →L[ℝ] ℝ) ((P →L[ℝ] ℝ) × ℝ)).hasFDerivAt.comp_hasDerivWithinAt t e1
    have e3 := (ContinuousLinearMap.snd ℝ (X →L[ℝ] ℝ) ((P →L[ℝ] ℝ) × ℝ)).hasFDerivAt.comp_hasDerivWithinAt t e1
    have e4 := (ContinuousLinearMap.fst ℝ (P →L[ℝ] ℝ) ℝ).hasFDerivAt.comp_hasDerivWithinAt t e3
    refine (e2.prodMk e4).congr_deriv ?_
    rw [interpDynamics_smooth, adjointDynamics_smooth]
    simp only [ContinuousLinearMap.coe_fst', ContinuousLinearMap.coe_snd', hzy t]
  refine ⟨Classical.choose h, Classical.choose h tLo, [], (Classical.choose_spec h).1, (Classical.choose_spec h).2, by simp, ?_⟩
  simp only [dif_pos h]

/-- **C125**, exact case: with exact solves along the true trajectory and the true states, the interpolated adjoint returns
the gradient itself. -/
theorem C125_exact (hf : ContDiff ℝ 2 fun q : P × ℝ × X => f q.1 q.2.1 q.2.2) {θ : P} {x0 : X}
    {dg : Option (ℝ → X → (X →L[ℝ] ℝ))} (hdg : ContDiff ℝ 1 fun p : ℝ × X => lossCot dg p.1 p.2)
    {G : ℝ → X → ℝ} (hGc : Continuous fun p : ℝ × X => G p.1 p.2) (hG : ∀ t x, HasFDerivAt (G t) (lossCot dg t x) x)
    {t0 T : ℝ} (Y : P × X → ℝ → X) (hY : ∀ᶠ q in 𝓝 (θ, x0), Y q t0 = q.2 ∧ SolvesOn (f q.1) (Y q) t0 T)
    (rest : List ℝ) (hinc : (t0 :: rest).Pairwise (· < ·)) (hlast : (t0 :: rest).getLast? = some T) (ℓ : List (X → ℝ))
    (hℓ : ∀ l ∈ ℓ, ContDiff ℝ 2 l) (hlen : ℓ.length = (t0 :: rest).length) (spline)
    (hspl : spline (t0 :: rest) ((t0 :: rest).map (Y (θ, x0))) = .ok (Y (θ, x0))) (solve)
    (hs : InterpSolves 0 solve (smoothAdjoint f θ dg) (Y (θ, x0)) t0 T) :
    ∃ μ lam, interpBackward solve spline (smoothAdjoint f θ dg) (t0 :: rest) (t0 :: rest) ((t0 :: rest).map (Y (θ, x0)))
        (List.zipWith (fun l x => fderiv ℝ l x) ℓ ((t0 :: rest).map (Y (θ, x0)))) = .ok (μ, lam) ∧
      HasFDerivAt (fun q => (List.zipWith (fun l s => l (Y q s)) ℓ (t0 :: rest)).sum + ∫ s in t0..T, G s (Y q s))
        (μ.coprod lam) (θ, x0) := by
  obtain ⟨D, hD, C, h⟩ := C125_gradient hf hdg hGc hG Y hY rest hinc hlast ℓ hℓ hlen
  obtain ⟨μ, lam, hrun, hle⟩ := h 0 0 (Y (θ, x0)) zero_le_one le_rfl zero_le_one (by simp) ((t0 :: rest).map (Y (θ, x0))) spline
    (by simp) (by
      intro j x s h1 h2
      rw [List.getElem?_map, h2] at h1
      simp at h1
      rw [h1]
      simp) hspl solve hs
  refine ⟨μ, lam, hrun, ?_⟩
  simp only [add_zero, mul_zero] at hle
  rwa [sub_eq_zero.1 (norm_le_zero_iff.1 hle)]

/-- Non-vacuity of `C125_gradient`: the solutions `e^(θ t) x0` of `growth` with a quadratic loss, exact solves exist, and the
spline returns the trajectory. -/
example : ∃ (solve : _) (spline : List ℝ → List ℝ → Except PyErr (ℝ → ℝ)) (μ lam : ℝ →L[ℝ] ℝ),
    interpBackward solve spline (smoothAdjoint growth 1 none) [0, 1] [0, 1] [2, Real.exp 1 * 2]
      [0, fderiv ℝ (fun x => x ^ 2) (Real.exp 1 * 2)] = .ok (μ, lam) ∧
    HasFDerivAt (fun q : ℝ × ℝ => (Real.exp q.1 * q.2) ^ 2) (μ.coprod lam) (1, 2) := by
  have hf : ContDiff ℝ 2 fun q : ℝ × ℝ × ℝ => growth q.1 q.2.1 q.2.2 := by unfold growth; fun_prop
  have hY : ∀ q : ℝ × ℝ, (fun t => Real.exp (q.1 * t) * q.2) 0 = q.2 ∧
      SolvesOn (growth q.1) (fun t => Real.exp (q.1 * t) * q.2) 0 1 := by
    intro q
    refine ⟨by simp, fun t _ => ?_⟩
    have h : HasDerivAt (fun t => q.1 * t) q.1 t := by simpa using (hasDerivAt_id t).const_mul q.1
    refine ((h.exp.mul_const q.2).congr_deriv ?_).hasDerivWithinAt
    unfold growth; ring
  obtain ⟨solve, hs⟩ := exists_interp_solve (f := growth) (hf.of_le (by norm_num)) (1 : ℝ) (dg := none)
    (by unfold lossCot; fun_prop) (hY (1, 2)).2
  obtain ⟨μ, lam, hrun, hD⟩ := C125_exact hf (θ := 1) (x0 := 2) (dg := none) (G := fun _ _ => 0) (by unfold lossCot; fun_prop)
    (by fun_prop) (fun t x => by simpa [lossCot] using hasFDerivAt_const (0 : ℝ) x) (fun q t => Real.exp (q.1 * t) * q.2)
    (Filter.Eventually.of_forall hY) [1] (by simp) (by simp) [fun _ => 0, fun x => x ^ 2]
    (by
      intro l hl
      rcases List.mem_cons.1 hl with rfl | hl
      · fun_prop
      · rw [List.mem_singleton.1 hl]; fun_prop) (by simp) (fun _ _ => .ok fun t => Real.exp (1 * t) * 2) rfl solve hs
  refine ⟨solve, fun _ _ => .ok fun t => Real.exp (1 * t) * 2, μ, lam, ?_, ?_⟩
  · simpa using hrun
  · simpa using hD

/-! ### Rows of the gradient -/

/-- **C125**, which rows are read: with `n` times in `t_span` the loop only reads the first `n - 1` rows of the gradient and
the last one. If those vanish, and a solve from zero ends in zero, the result is zero whatever the other rows are. -/
theorem C125_rows {K X L M : Type} [Field K] [AddCommGroup L] [AddCommGroup M]
    (solve : (K → L × M → Except PyErr (L × M)) → L × M → List K → Except PyErr (List K × List (L × M)))
    (spline : List K → List X → Except PyErr (K → X)) (F : AdjointField K X L M) (curve : K → X) (tSpan tSol : List K)
    (sol : List X) (hsol : sol ≠ []) (hspl : spline tSol sol = .ok curve)
    (hz : ∀ (i : ℕ) (tLo tHi : K), tSpan[i]? = some tLo → tSpan[i + 1]? = some tHi →
      ∃ r, solve (fun t A => pure (interpDynamics F curve t A)) 0 [tHi, tLo] = .ok r ∧ r.2.getLast? = some 0)
    (gx : List L) (hfirst : ∀ j < tSpan.length - 1, gx[j]? = some 0) (hlast : gx.getLast? = some 0) :
    interpBackward solve spline F tSpan tSol sol gx = .ok (0, 0) := by
  have key : ∀ i < tSpan.length, interpLoop solve F curve tSpan gx i (0, 0) = .ok (0, 0) := by
    intro i
    induction i with
    | zero => intro _; rfl
    | succ i ih =>
      intro hi
      have e1 : tSpan[i + 1]? = some tSpan[i + 1] := List.getElem?_eq_getElem hi
      have e2 : tSpan[i]? = some (tSpan[i]'(by omega)) := List.getElem?_eq_getElem _
      obtain ⟨r, hr, hr0⟩ := hz i _ _ e2 e1
      change solve _ (0, 0) _ = _ at hr
      unfold interpLoop
      simp only [getItem, getLastItem, e1, e2, hfirst i (by omega), bind, Except.bind, pure, Except.pure]
      simp only [pure, Except.pure] at hr
      simp only [hr, hr0, Prod.fst_zero, Prod.snd_zero, add_zero]
      exact ih (by omega)
  unfold interpBackward
  simp only [getLastItem, List.getLast?_eq_some_getLast hsol, hlast, hspl, bind, Except.bind, pure, Except.pure]
  rcases Nat.eq_zero_or_pos tSpan.length with h | h
  · simp [h, interpLoop, pure, Except.pure]
  · rw [key _ (by omega)]

/-- A smooth field, `θ x + s(t)` with a smooth transition `s` from `0` to `1`; at `θ = 0` no `dopri5` step over `[0, 1]` is
accepted. -/
noncomputable def rampField (θ t : ℝ) (x : Unit → ℝ) : Unit → ℝ :=
  fun i => θ * x i + Real.smoothTransition ((t - 3 / 10) * 2)

theorem rampField_smooth : ContDiff ℝ 2 fun q : ℝ × ℝ × (Unit → ℝ) => rampField q.1 q.2.1 q.2.2 := by
  unfold rampField
  refine contDiff_pi.2 fun i => ?_
  have h1 : ContDiff ℝ 2 fun q : ℝ × ℝ × (Unit → ℝ) => q.1 * q.2.2 i := by fun_prop
  have h2 : ContDiff ℝ 2 fun q : ℝ × ℝ × (Unit → ℝ) => Real.smoothTransition ((q.2.1 - 3 / 10) * 2) :=
    Real.smoothTransition.contDiff.comp (by fun_prop)
  exact h1.add h2

theorem rampField_bounded (t : ℝ) (x : Unit → ℝ) (i : Unit) : |rampField 0 t x i| ≤ 1 := by
  unfold rampField
  rw [zero_mul, zero_add, abs_of_nonneg (Real.smoothTransition.nonneg _)]
  exact Real.smoothTransition.le_one _

theorem rampField_zero (t : ℝ) (x : Unit → ℝ) (h : t ≤ 3 / 10) : rampField 0 t x = fun _ => 0 := by
  unfold rampField
  funext i
  rw [Real.smoothTransition.zero_of_nonpos (by linarith)]
  ring

theorem rampField_one (t : ℝ) (x : Unit → ℝ) (h : 4 / 5 ≤ t) : rampField 0 t x = fun _ => 1 := by
  unfold rampField
  funext i
  rw [Real.smoothTransition.one_of_one_le (by linarith)]
  ring

theorem rampField_rejected (p q : Point Unit) (hp : p = (0, fun _ => 0)) (hq : q.1 = 1) :
    ¬ AcceptedStep (dopri5Solver (Except PyErr) ℝ (Unit → ℝ) Unit) () (rampField 0) Finset.univ (1 / 10000) (1 / 10000)
      p q := by
  rintro ⟨_, k, e, st, hstep, hle⟩
  subst hp
  rw [hq] at hstep
  simp only [dopri5Solver, dopri5Step, rk7Step, firstStage, bind, Except.bind, pure, Except.pure] at hstep
  simp only [constructDopri5, dopri5Bsol, dopri5Bhat, List.zipWith_cons_cons, List.zipWith_nil_left, nth] at hstep
  norm_num at hstep
  rw [rampField_zero 0 _ (by norm_num)] at hstep
  rw [rampField_zero (1 / 5) _ (by norm_num), rampField_zero (3 / 10) _ (by norm_num), rampField_one (4 / 5) _ (by norm_num),
    rampField_one (8 / 9) _ (by norm_num)] at hstep
  have r1 : ∀ x, rampField 0 1 x = fun _ => 1 := fun x => rampField_one 1 x (by norm_num)
  simp only [r1] at hstep
  obtain ⟨-, hx, he, -⟩ := hstep
  have hx' := congrFun hx default
  have he' := congrFun he default
  simp only [Pi.add_apply, Pi.smul_apply, smul_eq_mul, Pi.zero_apply] at hx' he'
  norm_num at hx' he'
  unfold errorNorm at hle
  rw [Real.sqrt_le_left zero_le_one] at hle
  simp only [Finset.univ_unique, Finset.sum_singleton, Finset.card_singleton, ← hx', ← he'] at hle
  norm_num at hle

theorem rampField_fderiv_x (t : ℝ) (x : Unit → ℝ) : fderiv ℝ (fun x' => rampField 0 t x') x = 0 := by
  have : (fun x' => rampField 0 t x') = fun _ : Unit → ℝ => fun _ : Unit => Real.smoothTransition ((t - 3 / 10) * 2) := by
    funext x' i
    simp [rampField]
  rw [this]
  exact (hasFDerivAt_const _ x).fderiv

/-- The solution of the ramp equation at `θ = 0`. -/
noncomputable def rampSol (x0 : Unit → ℝ) (t : ℝ) : Unit → ℝ :=
  fun i => x0 i + ∫ s in (0 : ℝ)..t, Real.smoothTransition ((s - 3 / 10) * 2)

theorem rampSol_solves (x0 : Unit → ℝ) (a b : ℝ) : SolvesOn (rampField 0) (rampSol x0) a b := by
  intro t _
  have hc : Continuous fun s : ℝ => Real.smoothTransition ((s - 3 / 10) * 2) :=
    Real.smoothTransition.continuous.comp (by fun_prop)
  refine (hasDerivAt_pi.2 fun i => ?_).hasDerivWithinAt
  have := (hc.integral_hasStrictDerivAt 0 t).hasDerivAt.const_add (x0 i)
  simpa [rampSol, rampField] using this

/-- **C125 is false** for adaptive solvers and losses on rows other than the last: the rows of the output belong to `t_sol`,
the loop reads them by the indices of `t_span`. A smooth field on `[0, 1]` with `dopri5`: the forward pass returns more than
two rows. The derivative of the state at the time of the second row with respect to the initial state is the identity, yet
the backward pass of the loss "the second row" returns zero for every spline and every exact solve. -/
theorem C125_rows_refuted :
    ∃ fuel ts xs, odeProblemOdeint fuel "interpolated_adjoint" (pureField (rampField 0)) (fun _ => 0) [0, 1]
        (dopri5Solver (Except PyErr) ℝ (Unit → ℝ) Unit) (1 / 10000) (1 / 10000) false [] () (fun _ => true) () =
        .ok (some (ts, xs)) ∧ 2 < ts.length ∧ xs.length = ts.length ∧
      (∀ x0, rampSol x0 0 = x0 ∧ SolvesOn (rampField 0) (rampSol x0) 0 1) ∧
      (∀ t1 ∈ ts, HasFDerivAt (fun x0 => rampSol x0 t1 ()) (ContinuousLinearMap.proj (R := ℝ) (φ := fun _ : Unit => ℝ) ()) 0) ∧
      ∀ spline curve, spline ts xs = .ok curve → ∀ solve,
        InterpSolves 0 solve (smoothAdjoint rampField 0 none) curve 0 1 →
        interpBackward solve spline (smoothAdjoint rampField 0 none) [0, 1] ts xs
          ((List.replicate ts.length 0).set 1 (ContinuousLinearMap.proj (R := ℝ) (φ := fun _ : Unit => ℝ) ())) = .ok (0, 0) := by
  have hinc : Increasing ([0, 1] : List ℝ) := by simp [Increasing]
  obtain ⟨fuel, ts, xs, h⟩ := C27_terminates_dopri5 () (rampField 0) 1 rampField_bounded (fun _ => 0) 0 1 [] hinc
    (1 / 10000) (1 / 10000) (by norm_num) (by norm_num) false true [] Finset.univ
  obtain ⟨r, hr, hall⟩ := C23_all_eval (dopri5_fsalSolver ()) (rampField 0) (fun _ => 0) 0 1 [] hinc (1 / 10000)
    (1 / 10000) false [] Finset.univ fuel
  rw [h] at hr
  cases hr
  obtain ⟨_, hh, hl, _, hlen, hx0, _⟩ := hall ts xs rfl
  have hc := C23_all_eval_consecutive (dopri5_fsalSolver ()) (rampField 0) (fun _ => 0) 0 1 [] hinc (1 / 10000)
    (1 / 10000) false (Or.inl rfl) [] Finset.univ fuel ts xs h
  have h2 : 2 < ts.length := by
    match ts, xs, hh, hl, hlen, hx0, hc with
    | [a], _, hh, hl, _, _, _ =>
      simp at hh hl
      linarith
    | [a, b], [c, d], hh, hl, _, hx0, hc =>
      simp at hh hl hx0
      subst hh hl hx0
      exact absurd (List.isChain_cons_cons.1 hc).1 (rampField_rejected _ _ rfl rfl)
    | a :: b :: c :: l, _, _, _, _, _, _ => simp
  have hlen' : xs.length = ts.length := by omega
  refine ⟨fuel, ts, xs, by simpa [odeProblemOdeint, genericOdeint] using h, h2, hlen', ?_, ?_, ?_⟩
  · exact fun x0 => ⟨by funext i; simp [rampSol], rampSol_solves x0 0 1⟩
  · intro t1 _
    unfold rampSol
    exact (ContinuousLinearMap.proj (R := ℝ) (φ := fun _ : Unit => ℝ) ()).hasFDerivAt.add_const _
  · intro spline curve hspl solve hs
    have hdyn : ∀ {tLo tHi : ℝ}, tLo < tHi → ∀ z : ℝ → CotS (Unit → ℝ) ℝ, z tHi = 0 →
        SolvesOn (interpDynamics (smoothAdjoint rampField 0 none) curve) z tLo tHi → z tLo = 0 := by
      intro tLo tHi hlt z hz hsol
      have hd1 : ∀ t ∈ Icc tLo tHi, HasDerivWithinAt (fun t => (z t).1) 0 (Icc tLo tHi) t := by
        intro t ht
        have h' := (ContinuousLinearMap.fst ℝ ((Unit → ℝ) →L[ℝ] ℝ) (ℝ →L[ℝ] ℝ)).hasFDerivAt.comp_hasDerivWithinAt t (hsol t ht)
        refine h'.congr_deriv ?_
        rw [interpDynamics_smooth, rampField_fderiv_x]
        simp [lossCot]
      have h1 : ∀ t ∈ Icc tLo tHi, (z t).1 = 0 := by
        intro t ht
        have := (convex_Icc tLo tHi).norm_image_sub_le_of_norm_hasDerivWithin_le hd1 (C := 0) (by simp) ht ⟨hlt.le, le_rfl⟩
        simp only [zero_mul, norm_le_zero_iff, sub_eq_zero] at this
        rw [← this, hz]
        rfl
      have hd2 : ∀ t ∈ Icc tLo tHi, HasDerivWithinAt (fun t => (z t).2) 0 (Icc tLo tHi) t := by
        intro t ht
        have h' := (ContinuousLinearMap.snd ℝ ((Unit → ℝ) →L[ℝ] ℝ) (ℝ →L[ℝ] ℝ)).hasFDerivAt.comp_hasDerivWithinAt t (hsol t ht)
        refine h'.congr_deriv ?_
        rw [interpDynamics_smooth, h1 t ht]
        simp
      have := (convex_Icc tLo tHi).norm_image_sub_le_of_norm_hasDerivWithin_le hd2 (C := 0) (by simp)
        ⟨le_rfl, hlt.le⟩ ⟨hlt.le, le_rfl⟩
      simp only [zero_mul, norm_le_zero_iff, sub_eq_zero] at this
      exact Prod.ext (h1 tLo ⟨le_rfl, hlt.le⟩) (by rw [← this, hz])
    have hz : ∃ tr, solve (fun t A => pure (interpDynamics (smoothAdjoint rampField 0 none) curve t A)) 0 [1, 0] =
        .ok (tr, [0, 0]) := by
      obtain ⟨z, B', tr, hz0, hzs, hB, hrun⟩ := hs 0 1 0 le_rfl one_pos le_rfl
      have e := hdyn one_pos z hz0 hzs
      rw [zero_mul, e, sub_zero] at hB
      rw [norm_le_zero_iff.1 hB] at hrun
      exact ⟨tr, hrun⟩
    obtain ⟨tr, htr⟩ := hz
    refine C125_rows solve spline _ curve [0, 1] ts xs (by rw [← List.length_pos_iff]; omega) hspl ?_ _ ?_ ?_
    · intro i tLo tHi h1 h2
      match i, h1, h2 with
      | 0, h1, h2 =>
        simp at h1 h2
        subst h1 h2
        exact ⟨_, htr, rfl⟩
      | _ + 1, _, h2 => simp at h2
    · intro j hj
      have : j = 0 := by simp at hj; omega
      subst this
      rw [List.getElem?_set_ne (by omega), List.getElem?_replicate, if_pos (by omega)]
    · rw [List.getLast?_eq_getElem?, List.length_set, List.length_replicate, List.getElem?_set_ne (by omega),
        List.getElem?_replicate, if_pos (by omega)]

end Torchdyn
