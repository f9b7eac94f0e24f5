import Verif.Props.Sde
import Verif.Proofs.Convergence
import Verif.Proofs.Ode
import Mathlib.Analysis.Normed.Ring.Lemmas
import Mathlib.Analysis.SpecialFunctions.Pow.Continuity

/-!
Property C100: pathwise accuracy of `sdeint` for additive noise.

`dX = f(t, X) dt + σ dW` with a constant `σ` makes sense path by path: for each path `W` a solution is a function `X` for
which `X - σ (W - W(t0))` is differentiable with derivative `f(t, X(t))`. No probability is involved: the path is any
continuous function, and the statements hold for each of them.
-/

set_option linter.unusedSectionVars false
set_option linter.unusedSimpArgs false

namespace Torchdyn

open Spec Set

variable {ι : Type} [Fintype ι]

/-- `X` solves `dX = f(t, X) dt + σ dW` on `[t0, T]` along the path `W`, from `x0`. -/
structure PathSolution (f : ℝ → (ι → ℝ) → (ι → ℝ)) (σ : ι → ℝ) (W : ℝ → ι → ℝ) (x0 : ι → ℝ) (t0 T : ℝ)
    (X : ℝ → ι → ℝ) : Prop where
  start : X t0 = x0
  drift : ∀ t ∈ Icc t0 T, HasDerivWithinAt (fun s => X s - σ * (W s - W t0)) (f t (X t)) (Icc t0 T) t

/-- Along every continuous path there is a solution. -/
theorem exists_pathSolution {f : ℝ → (ι → ℝ) → (ι → ℝ)} {L : NNReal}
    (hf : Continuous fun p : ℝ × (ι → ℝ) => f p.1 p.2) (hL : ∀ t, LipschitzWith L (f t)) (σ : ι → ℝ) {W : ℝ → ι → ℝ}
    {t0 T : ℝ} (h : t0 ≤ T) (hW : ContinuousOn W (Icc t0 T)) (x0 : ι → ℝ) : ∃ X, PathSolution f σ W x0 t0 T X := by
  obtain ⟨y, hy0, hy⟩ := exists_solution (F := fun t x => f t (x + σ * (W t - W t0))) h L
    (fun t _ => by
      refine LipschitzWith.of_dist_le_mul fun x x' => ?_
      simpa [dist_eq_norm] using (hL t).dist_le_mul (x + σ * (W t - W t0)) (x' + σ * (W t - W t0)))
    (fun x => hf.comp_continuousOn (continuousOn_id.prodMk
      (continuousOn_const.add (continuousOn_const.mul (hW.sub continuousOn_const))))) x0
  refine ⟨fun t => y t + σ * (W t - W t0), by simp [hy0], fun t ht => ?_⟩
  have := hy t ht
  simpa using this

theorem PathSolution.continuousOn {f : ℝ → (ι → ℝ) → (ι → ℝ)} {σ : ι → ℝ} {W : ℝ → ι → ℝ} {x0 : ι → ℝ} {t0 T : ℝ}
    {X : ℝ → ι → ℝ} (hX : PathSolution f σ W x0 t0 T X) (hW : ContinuousOn W (Icc t0 T)) : ContinuousOn X (Icc t0 T) := by
  have h1 : ContinuousOn (fun s => X s - σ * (W s - W t0)) (Icc t0 T) := fun t ht => (hX.drift t ht).continuousWithinAt
  have h2 := h1.add (continuousOn_const (c := σ) |>.mul (hW.sub (continuousOn_const (c := W t0))))
  refine h2.congr fun t _ => ?_
  simp

/-- The step all solvers make when the diffusion is constant. -/
def additiveStep (f : ℝ → (ι → ℝ) → (ι → ℝ)) (σ : ι → ℝ) (W : ℝ → ι → ℝ) (x : ι → ℝ) (t dt : ℝ) : ι → ℝ :=
  x + dt • f t x + σ * (W (t + dt) - W t)

theorem sdeint_additive (sqrt : ℝ → ℝ) (f : ℝ → (ι → ℝ) → (ι → ℝ)) (σ : ι → ℝ) (W : ℝ → ι → ℝ) {name : String}
    {noise type : Option String} (h : Accepts name noise type) (x : ι → ℝ) (tSpan : List ℝ)
    (h2 : 2 ≤ tSpan.length) (hinc : tSpan.Pairwise (· < ·)) :
    sdeint (m := Except PyErr) sqrt (.sdeFunc (pureSde f (fun _ _ => σ) noise type)) x tSpan (.inl name) (pathBm W) [] =
      .ok (tSpan, gridStates (additiveStep f σ W) x tSpan) := by
  have half : (1 / 2 : ℝ) • (σ + σ) = σ := by
    rw [← two_smul ℝ σ, smul_smul]
    norm_num
  obtain ⟨step, hs, e⟩ := sdeint_name (m := Except PyErr) sqrt f (fun _ _ => σ) (pathBm W) h x tSpan
    (fun step => ∀ x t dt, 0 < dt → step x t dt = .ok (.three none (additiveStep f σ W x t dt) none))
    (fun _ x t dt _ => by
      simp only [eulerMaruyamaStep, pureSde, pathBm, bind, Except.bind, pure, Except.pure, additiveStep])
    (fun _ x t dt _ => by
      simp only [eulerHeunStep, pureSde, pathBm, bind, Except.bind, pure, Except.pure, half, additiveStep])
    (fun _ x t dt _ => by
      simp only [milsteinStep, pureSde, pathBm, bind, Except.bind, pure, Except.pure, zero_mul, add_zero, smul_zero,
        sub_self, additiveStep])
    (fun _ x t dt _ => by
      simp only [milsteinStep, pureSde, pathBm, bind, Except.bind, pure, Except.pure, zero_mul, add_zero, smul_zero,
        sub_self, additiveStep])
  rw [e]
  exact run_of_steps step _ hs x tSpan h2 hinc

/-- If over each step the drift along the solution moves by at most `η`, the error is of the size of `η`. -/
theorem additive_error {f : ℝ → (ι → ℝ) → (ι → ℝ)} {σ : ι → ℝ} {W : ℝ → ι → ℝ} {x0 : ι → ℝ} {t0 T : ℝ}
    {X : ℝ → ι → ℝ} (hX : PathSolution f σ W x0 t0 T X) {L : NNReal} (hL : ∀ t, LipschitzWith L (f t)) {h η : ℝ}
    (hη : 0 ≤ η) (hmod : ∀ t ∈ Icc t0 T, ∀ s ∈ Icc t0 T, t ≤ s → s - t ≤ h → ‖f s (X s) - f t (X t)‖ ≤ η) (rest : List ℝ)
    (hinc : (t0 :: rest).Pairwise (· < ·)) (hT : ∀ t ∈ t0 :: rest, t ≤ T)
    (hgap : ∀ (k : ℕ) (t t' : ℝ), (t0 :: rest)[k]? = some t → (t0 :: rest)[k + 1]? = some t' → t' - t ≤ h) (k : ℕ)
    (t : ℝ) (x : ι → ℝ) (hk : (t0 :: rest)[k]? = some t)
    (hx : (gridStates (additiveStep f σ W) x0 (t0 :: rest))[k]? = some x) :
    ‖x - X t‖ ≤ η * (T - t0) * Real.exp (L * (T - t0)) := by
  have ht : t ∈ t0 :: rest := List.mem_of_getElem? hk
  have htT := hT t ht
  have ht0 : t0 ≤ t := by
    rcases List.mem_cons.1 ht with rfl | hm
    · exact le_rfl
    · exact ((List.pairwise_cons.1 hinc).1 t hm).le
  have htraj := gridStates_isTrajectory (additiveStep f σ W) (X t0) (t0 :: rest) (by simp)
  rw [← hX.start] at hx
  have key := global_error_bound (φ := additiveStep f σ W) (y := X) (L := L) (δ := η) (T := T) L.coe_nonneg hη
    (hinc.imp fun h => h.le) hT ?_ ?_ htraj k t x hk hx
  · refine key.trans ?_
    have h1 : t - t0 ≤ T - t0 := by linarith
    have h2 : 0 ≤ t - t0 := by linarith
    have h3 := Real.exp_le_exp.2 (mul_le_mul_of_nonneg_left h1 L.coe_nonneg)
    exact mul_le_mul (mul_le_mul_of_nonneg_left h1 hη) h3 (Real.exp_pos _).le (by nlinarith)
  · intro a b _ hab _ _ z z'
    have h1 := (hL a).dist_le_mul z z'
    rw [dist_eq_norm, dist_eq_norm] at h1
    have e : additiveStep f σ W z a (b - a) - additiveStep f σ W z' a (b - a) = (z - z') + (b - a) • (f a z - f a z') := by
      simp only [additiveStep]
      module
    rw [e]
    refine (norm_add_le _ _).trans ?_
    rw [norm_smul, Real.norm_of_nonneg (sub_nonneg.2 hab)]
    nlinarith [mul_le_mul_of_nonneg_left h1 (sub_nonneg.2 hab)]
  · intro a b ha hab hb hcons
    obtain ⟨k, hk1, hk2⟩ := hcons
    have hg := hgap k a b hk1 hk2
    have haI : a ∈ Icc t0 T := ⟨ha, hab.trans hb⟩
    have hder : ∀ s ∈ Icc a b, HasDerivWithinAt (fun s => (X s - σ * (W s - W t0)) - (s - a) • f a (X a))
        (f s (X s) - f a (X a)) (Icc a b) s := by
      intro s hs
      have h1 := (hX.drift s ⟨ha.trans hs.1, hs.2.trans hb⟩).mono (Icc_subset_Icc ha hb)
      have h2 := (((hasDerivAt_id s).sub_const a).smul_const (f a (X a))).hasDerivWithinAt (s := Icc a b)
      simp only [id, one_smul] at h2
      exact h1.sub h2
    have hm := (convex_Icc a b).norm_image_sub_le_of_norm_hasDerivWithin_le hder
      (fun s hs => hmod a haI s ⟨ha.trans hs.1, hs.2.trans hb⟩ hs.1 (by linarith [hs.2])) ⟨le_rfl, hab⟩ ⟨hab, le_rfl⟩
    rw [Real.norm_of_nonneg (sub_nonneg.2 hab)] at hm
    rw [norm_sub_rev]
    refine le_of_eq_of_le ?_ hm
    congr 1
    simp only [additiveStep, add_sub_cancel, sub_self, zero_smul, sub_zero]
    ring

/-- **C100.** `sdeint` with additive noise converges along every path: for every continuous path, every drift that is
continuous and Lipschitz in the state, and every tolerance, all grids that are fine enough give states within the
tolerance of the solution along this path at all of their points. All four solvers that `sdeint` accepts do. -/
theorem C100_converges (sqrt : ℝ → ℝ) (f : ℝ → (ι → ℝ) → (ι → ℝ)) (L : NNReal)
    (hf : Continuous fun p : ℝ × (ι → ℝ) => f p.1 p.2) (hL : ∀ t, LipschitzWith L (f t)) (σ : ι → ℝ) (W : ℝ → ι → ℝ)
    (x0 : ι → ℝ) (t0 T : ℝ) (hW : ContinuousOn W (Icc t0 T)) (X : ℝ → ι → ℝ) (hX : PathSolution f σ W x0 t0 T X) (ε : ℝ)
    (hε : 0 < ε) :
    ∃ δ, 0 < δ ∧ ∀ {name : String} {noise type : Option String}, Accepts name noise type →
      ∀ (t1 : ℝ) (rest : List ℝ), (t0 :: t1 :: rest).Pairwise (· < ·) → (∀ t ∈ t0 :: t1 :: rest, t ≤ T) →
      (∀ (k : ℕ) (t t' : ℝ), (t0 :: t1 :: rest)[k]? = some t → (t0 :: t1 :: rest)[k + 1]? = some t' → t' - t ≤ δ) →
      ∃ sol, sdeint (m := Except PyErr) sqrt (.sdeFunc (pureSde f (fun _ _ => σ) noise type)) x0 (t0 :: t1 :: rest)
          (.inl name) (pathBm W) [] = .ok (t0 :: t1 :: rest, sol) ∧ sol.length = (t0 :: t1 :: rest).length ∧
        ∀ (k : ℕ) (t : ℝ) (x : ι → ℝ), (t0 :: t1 :: rest)[k]? = some t → sol[k]? = some x → ‖x - X t‖ ≤ ε := by
  have hc : ContinuousOn (fun s => f s (X s)) (Icc t0 T) :=
    hf.comp_continuousOn (continuousOn_id.prodMk (hX.continuousOn hW))
  have hu := isCompact_Icc.uniformContinuousOn_of_continuous hc
  set c := |T - t0| * Real.exp (L * (T - t0)) + 1 with hcdef
  have hcpos : 0 < c := by positivity
  obtain ⟨δ, hδ, H⟩ := Metric.uniformContinuousOn_iff.1 hu (ε / c) (by positivity)
  refine ⟨δ / 2, by positivity, fun hacc t1 rest hinc hT hgap => ?_⟩
  refine ⟨_, sdeint_additive sqrt f σ W hacc x0 _ (by simp) hinc,
    (gridStates_isTrajectory (additiveStep f σ W) x0 (t0 :: t1 :: rest) (by simp)).length_eq, fun k t x hk hx => ?_⟩
  have := additive_error hX hL (h := δ / 2) (η := ε / c) (by positivity) (fun t ht s hs hts hst => ?_) (t1 :: rest) hinc hT
    hgap k t x hk hx
  · refine this.trans ?_
    have h1 : (T - t0) * Real.exp (L * (T - t0)) ≤ c :=
      (mul_le_mul_of_nonneg_right (le_abs_self _) (Real.exp_pos _).le).trans (by linarith)
    calc ε / c * (T - t0) * Real.exp (L * (T - t0)) = ε / c * ((T - t0) * Real.exp (L * (T - t0))) := by ring
      _ ≤ ε / c * c := mul_le_mul_of_nonneg_left h1 (by positivity)
      _ = ε := by field_simp
  · have := H s hs t ht (by rw [Real.dist_eq, abs_of_nonneg (by linarith)]; linarith)
    rw [dist_eq_norm] at this
    exact this.le

/-- **C100 (rate).** Along a path that is Hölder continuous with exponent `α` (Brownian paths are, for every `α < 1/2`)
and for a drift that is Lipschitz in time and state, the error is at most a constant times `h ^ α`, where `h` bounds the
gaps of the grid. -/
theorem C100_rate (sqrt : ℝ → ℝ) (f : ℝ → (ι → ℝ) → (ι → ℝ)) (L M : NNReal)
    (hL : ∀ t, LipschitzWith L (f t)) (hM : ∀ x, LipschitzWith M (f · x)) (σ : ι → ℝ) (W : ℝ → ι → ℝ)
    (x0 : ι → ℝ) (t0 T : ℝ) (α H : ℝ) (hα0 : 0 < α) (hα1 : α ≤ 1)
    (hW : ∀ t ∈ Icc t0 T, ∀ s ∈ Icc t0 T, ‖W s - W t‖ ≤ H * |s - t| ^ α) (X : ℝ → ι → ℝ)
    (hX : PathSolution f σ W x0 t0 T X) :
    ∃ C, ∀ {name : String} {noise type : Option String}, Accepts name noise type →
      ∀ (h t1 : ℝ) (rest : List ℝ), (t0 :: t1 :: rest).Pairwise (· < ·) → (∀ t ∈ t0 :: t1 :: rest, t ≤ T) →
      (∀ (k : ℕ) (t t' : ℝ), (t0 :: t1 :: rest)[k]? = some t → (t0 :: t1 :: rest)[k + 1]? = some t' → t' - t ≤ h) →
      ∃ sol, sdeint (m := Except PyErr) sqrt (.sdeFunc (pureSde f (fun _ _ => σ) noise type)) x0 (t0 :: t1 :: rest)
          (.inl name) (pathBm W) [] = .ok (t0 :: t1 :: rest, sol) ∧ sol.length = (t0 :: t1 :: rest).length ∧
        ∀ (k : ℕ) (t : ℝ) (x : ι → ℝ), (t0 :: t1 :: rest)[k]? = some t → sol[k]? = some x → ‖x - X t‖ ≤ C * h ^ α := by
  -- the path is continuous
  have hWc : ContinuousOn W (Icc t0 T) := by
    intro t ht
    rw [ContinuousWithinAt, tendsto_iff_norm_sub_tendsto_zero]
    have hz : Filter.Tendsto (fun s : ℝ => H * |s - t| ^ α) (nhdsWithin t (Icc t0 T)) (nhds 0) := by
      have hcont : Continuous fun s : ℝ => H * |s - t| ^ α :=
        continuous_const.mul ((continuous_id.sub continuous_const).abs.rpow_const fun _ => Or.inr hα0.le)
      have := (hcont.tendsto t).mono_left (nhdsWithin_le_nhds (s := Icc t0 T))
      simpa [Real.zero_rpow hα0.ne'] using this
    refine squeeze_zero' (Filter.Eventually.of_forall fun _ => norm_nonneg _) ?_ hz
    filter_upwards [self_mem_nhdsWithin] with s hs
    exact hW t ht s hs
  have hf : Continuous fun p : ℝ × (ι → ℝ) => f p.1 p.2 := by
    refine continuous_iff_continuousAt.2 fun p => ?_
    rw [ContinuousAt, tendsto_iff_norm_sub_tendsto_zero]
    have hz : Filter.Tendsto (fun q : ℝ × (ι → ℝ) => L * ‖q.2 - p.2‖ + M * |q.1 - p.1|) (nhds p) (nhds 0) := by
      have hcont : Continuous fun q : ℝ × (ι → ℝ) => L * ‖q.2 - p.2‖ + M * |q.1 - p.1| := by fun_prop
      simpa using hcont.tendsto p
    refine squeeze_zero (fun _ => norm_nonneg _) (fun q => ?_) hz
    have h1 := (hL q.1).dist_le_mul q.2 p.2
    have h2 := (hM p.2).dist_le_mul q.1 p.1
    rw [dist_eq_norm, dist_eq_norm] at h1 h2
    rw [Real.norm_eq_abs] at h2
    have : f q.1 q.2 - f p.1 p.2 = (f q.1 q.2 - f q.1 p.2) + (f q.1 p.2 - f p.1 p.2) := by abel
    rw [this]
    exact (norm_add_le _ _).trans (by linarith)
  have hXc := hX.continuousOn hWc
  have hc : ContinuousOn (fun s => f s (X s)) (Icc t0 T) := hf.comp_continuousOn (continuousOn_id.prodMk hXc)
  obtain ⟨B, hB⟩ := isCompact_Icc.exists_bound_of_continuousOn hc
  set D := |T - t0| ^ (1 - α) with hD
  set c := L * (|B| * D + ‖σ‖ * |H|) + M * D with hcdef
  have hD0 : 0 ≤ D := Real.rpow_nonneg (abs_nonneg _) _
  have hc0 : 0 ≤ c := by positivity
  refine ⟨c * (T - t0) * Real.exp (L * (T - t0)), fun hacc h t1 rest hinc hT hgap => ?_⟩
  have h01 : t0 < t1 := (List.pairwise_cons.1 hinc).1 t1 (by simp)
  have hh : 0 ≤ h := (sub_nonneg.2 h01.le).trans (hgap 0 t0 t1 rfl rfl)
  refine ⟨_, sdeint_additive sqrt f σ W hacc x0 _ (by simp) hinc,
    (gridStates_isTrajectory (additiveStep f σ W) x0 (t0 :: t1 :: rest) (by simp)).length_eq, fun k t x hk hx => ?_⟩
  have := additive_error hX hL (h := h) (η := c * h ^ α) (by positivity) (fun t ht s hs hts hst => ?_) (t1 :: rest) hinc hT
    hgap k t x hk hx
  · refine this.trans (le_of_eq ?_)
    ring
  · have hr : 0 ≤ s - t := by linarith
    have habs : |s - t| = s - t := abs_of_nonneg hr
    -- a step size is at most a constant times its power
    have hlin : s - t ≤ D * (s - t) ^ α := by
      rcases hr.eq_or_lt with h0 | h0
      · rw [← h0]; positivity
      · have e : s - t = (s - t) ^ (1 - α) * (s - t) ^ α := by
          rw [← Real.rpow_add h0]; simp
        have hle : (s - t) ^ (1 - α) ≤ D :=
          Real.rpow_le_rpow hr (by rw [abs_of_nonneg (by linarith [ht.1, hs.2])]; linarith [ht.1, hs.2]) (by linarith)
        calc s - t = (s - t) ^ (1 - α) * (s - t) ^ α := e
          _ ≤ D * (s - t) ^ α := mul_le_mul_of_nonneg_right hle (Real.rpow_nonneg hr _)
    have hpow : (s - t) ^ α ≤ h ^ α := Real.rpow_le_rpow hr hst hα0.le
    have hp0 : 0 ≤ (s - t) ^ α := Real.rpow_nonneg hr _
    have hY : ‖(X s - σ * (W s - W t0)) - (X t - σ * (W t - W t0))‖ ≤ |B| * (s - t) := by
      have := (convex_Icc t0 T).norm_image_sub_le_of_norm_hasDerivWithin_le (f := fun s => X s - σ * (W s - W t0))
        (fun u hu => hX.drift u hu) (fun u hu => (hB u hu).trans (le_abs_self B)) ht hs
      rwa [Real.norm_eq_abs, habs] at this
    have hXs : ‖X s - X t‖ ≤ (|B| * D + ‖σ‖ * |H|) * (s - t) ^ α := by
      have e : X s - X t = ((X s - σ * (W s - W t0)) - (X t - σ * (W t - W t0))) + σ * (W s - W t) := by ring
      rw [e]
      refine (norm_add_le _ _).trans ?_
      have h1 : ‖σ * (W s - W t)‖ ≤ ‖σ‖ * (|H| * (s - t) ^ α) := by
        refine (norm_mul_le _ _).trans (mul_le_mul_of_nonneg_left ?_ (norm_nonneg _))
        refine (hW t ht s hs).trans ?_
        rw [habs]
        exact mul_le_mul_of_nonneg_right (le_abs_self H) hp0
      have h2 := mul_le_mul_of_nonneg_left hlin (abs_nonneg B)
      nlinarith
    have h1 := (hL s).dist_le_mul (X s) (X t)
    have h2 := (hM (X t)).dist_le_mul s t
    rw [dist_eq_norm, dist_eq_norm] at h1 h2
    rw [Real.norm_eq_abs, habs] at h2
    have e : f s (X s) - f t (X t) = (f s (X s) - f s (X t)) + (f s (X t) - f t (X t)) := by abel
    rw [e]
    refine (norm_add_le _ _).trans ?_
    have h3 := mul_le_mul_of_nonneg_left hXs L.coe_nonneg
    have h4 := mul_le_mul_of_nonneg_left hlin M.coe_nonneg
    have h5 := mul_le_mul_of_nonneg_left hpow hc0
    have : c * (s - t) ^ α = L * ((|B| * D + ‖σ‖ * |H|) * (s - t) ^ α) + M * (D * (s - t) ^ α) := by
      rw [hcdef]; ring
    linarith

/-- Non-vacuity: an Ornstein-Uhlenbeck process `dX = -X dt + dW` along the path `W(t) = √t`, which is Hölder continuous
with exponent `1/2` and no better at `0`, has a solution, and the solvers converge to it with rate `1/2`. -/
example : ∃ X C, PathSolution (ι := Fin 1) (fun _ x => -x) 1 (fun t _ => Real.sqrt t) 1 0 1 X ∧
    ∀ (h t1 : ℝ) (rest : List ℝ), (0 :: t1 :: rest).Pairwise (· < ·) → (∀ t ∈ 0 :: t1 :: rest, t ≤ (1 : ℝ)) →
      (∀ (k : ℕ) (t t' : ℝ), (0 :: t1 :: rest)[k]? = some t → (0 :: t1 :: rest)[k + 1]? = some t' → t' - t ≤ h) →
      ∃ sol, sdeint (m := Except PyErr) Real.sqrt (.sdeFunc (pureSde (fun _ x => -x) (fun _ _ => 1) (some "additive")
          (some "ito"))) (1 : Fin 1 → ℝ) (0 :: t1 :: rest) (.inl "euler") (pathBm fun t _ => Real.sqrt t) [] =
          .ok (0 :: t1 :: rest, sol) ∧ sol.length = (0 :: t1 :: rest).length ∧
        ∀ (k : ℕ) (t : ℝ) (x : Fin 1 → ℝ), (0 :: t1 :: rest)[k]? = some t → sol[k]? = some x →
          ‖x - X t‖ ≤ C * h ^ (1 / 2 : ℝ) := by
  have hL : ∀ t : ℝ, LipschitzWith 1 ((fun _ x => -x : ℝ → (Fin 1 → ℝ) → Fin 1 → ℝ) t) := fun _ => LipschitzWith.id.neg
  obtain ⟨X, hX⟩ := exists_pathSolution (ι := Fin 1) (f := fun _ x => -x) (L := 1) (by fun_prop) hL 1
    (W := fun t _ => Real.sqrt t) zero_le_one (by fun_prop) 1
  obtain ⟨C, hC⟩ := C100_rate Real.sqrt (fun _ x => -x) 1 0 hL (fun x => LipschitzWith.const' _) 1
    (fun t _ => Real.sqrt t) 1 0 1 (1 / 2) 1 (by norm_num) (by norm_num)
    (fun t ht s hs => by
      rw [one_mul, ← Real.sqrt_eq_rpow, pi_norm_le_iff_of_nonneg (Real.sqrt_nonneg _)]
      intro i
      simp only [Pi.sub_apply, Real.norm_eq_abs]
      refine Real.abs_le_sqrt ?_
      have h1 := Real.sq_sqrt ht.1
      have h2 := Real.sq_sqrt hs.1
      have h3 := Real.sqrt_nonneg t
      have h4 := Real.sqrt_nonneg s
      rcases le_total t s with h | h
      · rw [abs_of_nonneg (by linarith)]
        have := Real.sqrt_le_sqrt h
        nlinarith
      · rw [abs_of_nonpos (by linarith)]
        have := Real.sqrt_le_sqrt h
        nlinarith) X hX
  exact ⟨X, C, hX, fun h t1 rest => hC (.euler "additive" (by simp)) h t1 rest⟩

end Torchdyn
