import Verif.Props.Adjoint
import Verif.Proofs.Ode

/-!
C83, continued: the backward pass of the adjoint sensitivity returns the Fréchet gradient of the whole loss, terminal and
intermediate losses together with the integral loss, jointly in the parameters and the initial state. Differentiability of
the solutions is proved here, not assumed.
-/

set_option linter.unusedSectionVars false

namespace Torchdyn

open Set Asymptotics
open scoped Topology

section gradient

variable {X P : Type} [NormedAddCommGroup X] [NormedSpace ℝ X] [FiniteDimensional ℝ X]
  [NormedAddCommGroup P] [NormedSpace ℝ P] [FiniteDimensional ℝ P]

/-- The field with its parameters and the running integral of `G` appended to the state. -/
noncomputable def withLoss (f : P → ℝ → X → X) (G : ℝ → X → ℝ) (t : ℝ) (z : P × X × ℝ) : P × X × ℝ :=
  (0, f z.1 t z.2.1, G t z.2.1)

/-- The derivative of `withLoss`. -/
noncomputable def withLossD (A : P × X →L[ℝ] X) (B : X →L[ℝ] ℝ) : P × X × ℝ →L[ℝ] P × X × ℝ :=
  (ContinuousLinearMap.inr ℝ P (X × ℝ)).comp
    ((ContinuousLinearMap.inl ℝ X ℝ).comp (A.comp ((ContinuousLinearMap.fst ℝ P (X × ℝ)).prod
        ((ContinuousLinearMap.fst ℝ X ℝ).comp (ContinuousLinearMap.snd ℝ P (X × ℝ))))) +
      (ContinuousLinearMap.inr ℝ X ℝ).comp (B.comp
        ((ContinuousLinearMap.fst ℝ X ℝ).comp (ContinuousLinearMap.snd ℝ P (X × ℝ)))))

theorem withLossD_apply (A : P × X →L[ℝ] X) (B : X →L[ℝ] ℝ) (w : P) (v : X) (c : ℝ) :
    withLossD A B (w, v, c) = (0, A (w, v), B v) := by
  simp [withLossD]

theorem withLoss_hasFDerivAt {f : P → ℝ → X → X} {G : ℝ → X → ℝ} {G' : ℝ → X → (X →L[ℝ] ℝ)} {t : ℝ}
    (hf : Differentiable ℝ fun q : P × X => f q.1 t q.2) (hG : ∀ x, HasFDerivAt (G t) (G' t x) x) (z : P × X × ℝ) :
    HasFDerivAt (withLoss f G t)
      (withLossD (fderiv ℝ (fun q : P × X => f q.1 t q.2) (z.1, z.2.1)) (G' t z.2.1)) z := by
  have e1 : HasFDerivAt (fun z : P × X × ℝ => (z.1, z.2.1)) ((ContinuousLinearMap.fst ℝ P (X × ℝ)).prod
      ((ContinuousLinearMap.fst ℝ X ℝ).comp (ContinuousLinearMap.snd ℝ P (X × ℝ)))) z :=
    ((ContinuousLinearMap.fst ℝ P (X × ℝ)).prod
      ((ContinuousLinearMap.fst ℝ X ℝ).comp (ContinuousLinearMap.snd ℝ P (X × ℝ)))).hasFDerivAt
  have e2 : HasFDerivAt (fun z : P × X × ℝ => z.2.1)
      ((ContinuousLinearMap.fst ℝ X ℝ).comp (ContinuousLinearMap.snd ℝ P (X × ℝ))) z :=
    ((ContinuousLinearMap.fst ℝ X ℝ).comp (ContinuousLinearMap.snd ℝ P (X × ℝ))).hasFDerivAt
  have h1 := HasFDerivAt.comp z (hf (z.1, z.2.1)).hasFDerivAt e1
  have h2 := HasFDerivAt.comp z (hG z.2.1) e2
  have h := (hasFDerivAt_const (0 : P) z).prodMk (h1.prodMk h2)
  refine h.congr_fderiv ?_
  ext v <;> simp [withLossD]

/-- **C83.** The gradient, jointly in parameters and initial state and without assuming that solutions are differentiable.
Let `f(θ, t, x)` have a continuous derivative in `(θ, x)`, let `Y q` be the solution with parameters `q.1` and initial state
`q.2` for all `q` near `(θ, x0)`, let `ℓ_i` be differentiable losses on the output points and `G` the integrand of an
integral loss whose gradient the module is given (`G` may be any function of time when there is none). If the solves of the
backward pass are exact, the pass returns `μ` and `λ` such that `(w, v) ↦ μ w + λ v` is the Fréchet derivative of
`Σ ℓ_i (Y q t_i) + ∫ G(t, Y q t) dt` at `q = (θ, x0)`. -/
theorem C83_frechet {f : P → ℝ → X → X} {θ : P} {x0 : X}
    (hfc : Continuous fun p : ℝ × P × X => fderiv ℝ (fun q : P × X => f q.1 p.1 q.2) p.2)
    (hfd : ∀ t, Differentiable ℝ fun q : P × X => f q.1 t q.2)
    {dg : Option (ℝ → X → (X →L[ℝ] ℝ))} (hdg : Continuous fun p : ℝ × X => lossCot dg p.1 p.2)
    {G : ℝ → X → ℝ} (hGc : Continuous fun p : ℝ × X => G p.1 p.2) (hG : ∀ t x, HasFDerivAt (G t) (lossCot dg t x) x)
    {t0 b : ℝ} (Y : P × X → ℝ → X)
    (hY : ∀ᶠ q in 𝓝 (θ, x0), Y q t0 = q.2 ∧ SolvesOn (f q.1) (Y q) t0 b)
    {solve} (hsolve : ExactAlong solve (smoothAdjoint f θ dg) (Y (θ, x0)) t0 b) (rest : List ℝ)
    (hinc : (t0 :: rest).Pairwise (· < ·)) (hlast : (t0 :: rest).getLast? = some b) (ℓ : List (X → ℝ))
    (hℓ : ∀ l ∈ ℓ, Differentiable ℝ l) (hlen : ℓ.length = (t0 :: rest).length) (gt : List ℝ)
    (hgt : gt.length = (t0 :: rest).length) :
    ∃ μ lam d d', adjointBackward solve (smoothAdjoint f θ dg) (t0 :: rest) ((t0 :: rest).map (Y (θ, x0))) gt
        (List.zipWith (fun l s => fderiv ℝ l (Y (θ, x0) s)) ℓ (t0 :: rest)) = .ok (μ, lam, d, d') ∧
      HasFDerivAt (fun q => (List.zipWith (fun l s => l (Y q s)) ℓ (t0 :: rest)).sum + ∫ s in t0..b, G s (Y q s))
        (μ.coprod lam) (θ, x0) := by
  have : ProperSpace X := FiniteDimensional.proper ℝ X
  have : ProperSpace P := FiniteDimensional.proper ℝ P
  obtain ⟨hy0, hy⟩ := hY.self_of_nhds
  set y := Y (θ, x0) with hydef
  have hmem : ∀ s ∈ t0 :: rest, s ∈ Icc t0 b := by
    intro s hs
    constructor
    · rcases List.mem_cons.1 hs with rfl | hs
      · exact le_rfl
      · exact ((List.pairwise_cons.1 hinc).1 s hs).le
    · obtain ⟨l, hl⟩ := List.getLast?_eq_some_iff.1 hlast
      rw [hl] at hs hinc
      rcases List.mem_append.1 hs with hs | hs
      · exact ((List.pairwise_append.1 hinc).2.2 s hs b (by simp)).le
      · exact (List.mem_singleton.1 hs).le
  have hab : t0 ≤ b := (hmem t0 (by simp)).2
  have hfx : ∀ t x, HasFDerivAt (f θ t) ((fderiv ℝ (fun q : P × X => f q.1 t q.2) (θ, x)).comp
      (ContinuousLinearMap.inr ℝ P X)) x := fun t x =>
    HasFDerivAt.comp x (f := fun x => (θ, x)) (hfd t (θ, x)).hasFDerivAt (hasFDerivAt_prodMk_right _ _)
  have hfp : ∀ t x, HasFDerivAt (fun θ' => f θ' t x) ((fderiv ℝ (fun q : P × X => f q.1 t q.2) (θ, x)).comp
      (ContinuousLinearMap.inl ℝ P X)) θ := fun t x =>
    HasFDerivAt.comp θ (f := fun θ' => (θ', x)) (hfd t (θ, x)).hasFDerivAt (hasFDerivAt_prodMk_left _ _)
  have hf : Continuous fun p : ℝ × X => fderiv ℝ (f θ p.1) p.2 := by
    have e : (fun p : ℝ × X => fderiv ℝ (f θ p.1) p.2) = fun p =>
        (fderiv ℝ (fun q : P × X => f q.1 p.1 q.2) (θ, p.2)).comp (ContinuousLinearMap.inr ℝ P X) := by
      funext p
      exact (hfx p.1 p.2).fderiv
    rw [e]
    have h1 : Continuous fun p : ℝ × X => fderiv ℝ (fun q : P × X => f q.1 p.1 q.2) (θ, p.2) :=
      hfc.comp (by fun_prop : Continuous fun p : ℝ × X => ((p.1, θ, p.2) : ℝ × P × X))
    exact h1.clm_comp continuous_const
  obtain ⟨μ, lam, d, d', hrun, hvar⟩ := C83_variation (dg := dg) hf (fun t x => (hfx t x).differentiableAt) hdg hy hsolve
    rest hinc hlast (List.zipWith (fun l s => fderiv ℝ l (y s)) ℓ (t0 :: rest)) gt (by simp [hlen]) hgt
  refine ⟨μ, lam, d, d', hrun, ?_⟩
  -- the running integral of the loss along a solution
  have hint : ∀ F : ℝ → ℝ, ContinuousOn F (Icc t0 b) →
      ∃ c : ℝ → ℝ, c t0 = 0 ∧ (∀ t ∈ Icc t0 b, HasDerivWithinAt c (F t) (Icc t0 b) t) ∧ c b = ∫ s in t0..b, F s := by
    intro F hF
    obtain ⟨c, hc0, hc⟩ := exists_solution (ι := Unit) (F := fun t _ _ => F t) hab 0
      (fun t _ => LipschitzWith.const _) (fun _ => continuousOn_pi.2 fun _ => hF) (fun _ => 0)
    have hc' : ∀ t ∈ Icc t0 b, HasDerivWithinAt (fun t => c t ()) (F t) (Icc t0 b) t := fun t ht =>
      hasDerivWithinAt_pi.1 (hc t ht) ()
    refine ⟨fun t => c t (), by simp [hc0], hc', ?_⟩
    have := intervalIntegral.integral_eq_sub_of_hasDeriv_right_of_le hab (fun t ht => (hc' t ht).continuousWithinAt)
      (fun t ht => (hc' t ⟨ht.1.le, ht.2.le⟩).mono_of_mem_nhdsWithin (by
        exact Filter.mem_of_superset (inter_mem_nhdsWithin _ (Iio_mem_nhds ht.2)) fun s hs =>
          ⟨(ht.1.trans hs.1).le, hs.2.le⟩)) (hF.intervalIntegrable_of_Icc hab (μ := MeasureTheory.volume))
    rw [this, hc0, sub_zero]
  have hycont : ContinuousOn y (Icc t0 b) := fun t ht => (hy t ht).continuousWithinAt
  have haug : ∀ q, Y q t0 = q.2 → SolvesOn (f q.1) (Y q) t0 b →
      ∃ c : ℝ → ℝ, c t0 = 0 ∧ c b = (∫ s in t0..b, G s (Y q s)) ∧
        SolutionOn (withLoss f G) (fun t => (q.1, Y q t, c t)) t0 b := by
    intro q _ hq
    obtain ⟨c, hc0, hc, hcb⟩ := hint (fun s => G s (Y q s))
      (hGc.comp_continuousOn (continuousOn_id.prodMk fun t ht => (hq t ht).continuousWithinAt))
    exact ⟨c, hc0, hcb, fun t ht => (hasDerivWithinAt_const t _ q.1).prodMk ((hq t ht).prodMk (hc t ht))⟩
  have hgd : ∀ t z, HasFDerivAt (withLoss f G t)
      (withLossD (fderiv ℝ (fun q : P × X => f q.1 t q.2) (z.1, z.2.1)) (lossCot dg t z.2.1)) z := fun t z =>
    withLoss_hasFDerivAt (hfd t) (hG t) z
  have hgc : Continuous fun p : ℝ × P × X × ℝ => fderiv ℝ (withLoss f G p.1) p.2 := by
    have e : (fun p : ℝ × P × X × ℝ => fderiv ℝ (withLoss f G p.1) p.2) = fun p =>
        withLossD (fderiv ℝ (fun q : P × X => f q.1 p.1 q.2) (p.2.1, p.2.2.1)) (lossCot dg p.1 p.2.2.1) := by
      funext p
      exact (hgd p.1 p.2).fderiv
    rw [e]
    have h1 : Continuous fun p : ℝ × P × X × ℝ => fderiv ℝ (fun q : P × X => f q.1 p.1 q.2) (p.2.1, p.2.2.1) :=
      hfc.comp (by fun_prop : Continuous fun p : ℝ × P × X × ℝ => ((p.1, p.2.1, p.2.2.1) : ℝ × P × X))
    have h2 : Continuous fun p : ℝ × P × X × ℝ => lossCot dg p.1 p.2.2.1 :=
      hdg.comp (by fun_prop : Continuous fun p : ℝ × P × X × ℝ => ((p.1, p.2.2.1) : ℝ × X))
    unfold withLossD
    exact continuous_const.clm_comp ((continuous_const.clm_comp (h1.clm_comp continuous_const)).add
      (continuous_const.clm_comp (h2.clm_comp continuous_const)))
  obtain ⟨c0, hc00, hc0b, hz0⟩ := haug (θ, x0) hy0 hy
  -- the variation in every direction
  have hvarex : ∀ (w : P) (v : X), ∃ (u : ℝ → X) (e : ℝ → ℝ), u t0 = v ∧ e t0 = 0 ∧ IsVariation f θ w y u t0 b ∧
      e b = (∫ s in t0..b, lossCot dg s (y s) (u s)) ∧
      SolutionOn (fun t z => fderiv ℝ (withLoss f G t) (θ, y t, c0 t) z) (fun t => (w, u t, e t)) t0 b := by
    intro w v
    have hDc : ContinuousOn (fun t => fderiv ℝ (fun q : P × X => f q.1 t q.2) (θ, y t)) (Icc t0 b) :=
      hfc.comp_continuousOn (continuousOn_id.prodMk (continuousOn_const.prodMk hycont))
    obtain ⟨C, hC⟩ := isCompact_Icc.exists_bound_of_continuousOn hDc
    obtain ⟨u, hu0, hu⟩ := exists_solution_fd (F := fun t v => fderiv ℝ (fun q : P × X => f q.1 t q.2) (θ, y t) (w, v)) hab
      (Real.toNNReal C) (fun t ht => LipschitzWith.of_dist_le_mul fun v v' => by
        rw [dist_eq_norm, dist_eq_norm, ← map_sub, Prod.mk_sub_mk, sub_self]
        refine (ContinuousLinearMap.le_opNorm _ _).trans ?_
        have e : ‖((0 : P), v - v')‖ = ‖v - v'‖ := by simp [Prod.norm_def]
        rw [e]
        exact mul_le_mul_of_nonneg_right ((hC t ht).trans (Real.le_coe_toNNReal C)) (norm_nonneg _))
      (fun v => hDc.clm_apply continuousOn_const) v
    have huc : ContinuousOn u (Icc t0 b) := fun t ht => (hu t ht).continuousWithinAt
    have hlc : ContinuousOn (fun s => lossCot dg s (y s) (u s)) (Icc t0 b) :=
      (hdg.comp_continuousOn (continuousOn_id.prodMk hycont)).clm_apply huc
    obtain ⟨e, he0, he, heb⟩ := hint _ hlc
    refine ⟨u, e, hu0, he0, fun t ht => ?_, heb, fun t ht => ?_⟩
    · refine (hu t ht).congr_deriv ?_
      change _ = fderiv ℝ (fun x => f θ t x) (y t) (u t) + fderiv ℝ (fun θ' => f θ' t (y t)) θ w
      rw [(hfx t (y t)).fderiv, (hfp t (y t)).fderiv]
      simp only [ContinuousLinearMap.comp_apply, ContinuousLinearMap.inl_apply, ContinuousLinearMap.inr_apply, ← map_add,
        Prod.mk_add_mk, zero_add, add_zero]
    · have h := (hasDerivWithinAt_const t (Icc t0 b) w).prodMk ((hu t ht).prodMk (he t ht))
      refine h.congr_deriv ?_
      change _ = fderiv ℝ (withLoss f G t) (θ, y t, c0 t) (w, u t, e t)
      rw [(hgd t (θ, y t, c0 t)).fderiv, withLossD_apply]
  -- choose the running integrals and the variations
  choose! u e hu0 he0 hu heb hue using hvarex
  have hchoice : ∀ q, ∃ c : ℝ → ℝ, Y q t0 = q.2 ∧ SolvesOn (f q.1) (Y q) t0 b → c t0 = 0 ∧
      c b = (∫ s in t0..b, G s (Y q s)) ∧ SolutionOn (withLoss f G) (fun t => (q.1, Y q t, c t)) t0 b := by
    intro q
    by_cases h : Y q t0 = q.2 ∧ SolvesOn (f q.1) (Y q) t0 b
    · obtain ⟨c, hc⟩ := haug q h.1 h.2
      exact ⟨c, fun _ => hc⟩
    · exact ⟨0, fun h' => absurd h' h⟩
  choose c hc using hchoice
  have hstart : ∀ q : P × X, (((q.1, q.2, (0 : ℝ)) : P × X × ℝ) - (θ, x0, 0)) = ((q - (θ, x0)).1, (q - (θ, x0)).2, 0) := by
    intro q
    simp
  have hnorm : ∀ q : P × X, ‖(((q.1, q.2, (0 : ℝ)) : P × X × ℝ) - (θ, x0, 0))‖ = ‖q - (θ, x0)‖ := by
    intro q
    rw [hstart]
    simp [Prod.norm_def]
  have hrem : ∀ η > 0, ∀ᶠ q in 𝓝 (θ, x0), ∀ t ∈ Icc t0 b,
      ‖Y q t - y t - u (q - (θ, x0)).1 (q - (θ, x0)).2 t‖ ≤ η * ‖q - (θ, x0)‖ ∧
      ‖c q t - c0 t - e (q - (θ, x0)).1 (q - (θ, x0)).2 t‖ ≤ η * ‖q - (θ, x0)‖ := by
    intro η hη
    obtain ⟨δ, hδ, hr⟩ := solution_remainder hgc (fun t z => (hgd t z).differentiableAt) hz0 η hη
    filter_upwards [hY, Metric.closedBall_mem_nhds (θ, x0) hδ] with q hq hqδ t ht
    obtain ⟨hc1, -, hc3⟩ := hc q hq
    have ha : ((q.1, Y q t0, c q t0) : P × X × ℝ) - (θ, y t0, c0 t0) = (q.1, q.2, 0) - (θ, x0, 0) := by
      rw [hq.1, hc1, hy0, hc00]
    have := hr _ _ hc3 (hue (q - (θ, x0)).1 (q - (θ, x0)).2) (by
      rw [ha, hstart, hu0, he0]) (by
      change ‖((q.1, Y q t0, c q t0) : P × X × ℝ) - (θ, y t0, c0 t0)‖ ≤ δ
      rw [ha, hnorm]
      simpa [dist_eq_norm] using hqδ) t ht
    change ‖((q.1, Y q t, c q t) : P × X × ℝ) - (θ, y t, c0 t) - _‖ ≤ η * ‖((q.1, Y q t0, c q t0) : P × X × ℝ) - (θ, y t0, c0 t0)‖
      at this
    rw [ha, hnorm, Prod.mk_sub_mk, Prod.mk_sub_mk, Prod.mk_sub_mk, Prod.mk_sub_mk, Prod.norm_def, Prod.norm_def] at this
    have h2 := (le_max_right _ _).trans this
    exact ⟨(le_max_left _ _).trans h2, (le_max_right _ _).trans h2⟩
  have hoY : ∀ s ∈ Icc t0 b, (fun q => Y q s - y s - u (q - (θ, x0)).1 (q - (θ, x0)).2 s) =o[𝓝 (θ, x0)] fun q => q - (θ, x0) := by
    intro s hs
    rw [isLittleO_iff]
    intro η hη
    filter_upwards [hrem η hη] with q hq using (hq s hs).1
  have hoc : (fun q => c q b - c0 b - e (q - (θ, x0)).1 (q - (θ, x0)).2 b) =o[𝓝 (θ, x0)] fun q => q - (θ, x0) := by
    rw [isLittleO_iff]
    intro η hη
    filter_upwards [hrem η hη] with q hq using (hq b ⟨hab, le_rfl⟩).2
  -- solutions depend continuously on the start
  have hnear : ∀ s ∈ Icc t0 b, (fun q => Y q s - y s) =O[𝓝 (θ, x0)] fun q => q - (θ, x0) := by
    intro s hs
    obtain ⟨C, hC, δ, hδ, hn⟩ := solution_near hgc (fun t z => (hgd t z).differentiableAt) hz0
    refine IsBigO.of_bound C ?_
    filter_upwards [hY, Metric.closedBall_mem_nhds (θ, x0) hδ] with q hq hqδ
    obtain ⟨hc1, -, hc3⟩ := hc q hq
    have ha : ((q.1, Y q t0, c q t0) : P × X × ℝ) - (θ, y t0, c0 t0) = (q.1, q.2, 0) - (θ, x0, 0) := by
      rw [hq.1, hc1, hy0, hc00]
    have := hn _ hc3 (by
      change ‖((q.1, Y q t0, c q t0) : P × X × ℝ) - (θ, y t0, c0 t0)‖ ≤ δ
      rw [ha, hnorm]
      simpa [dist_eq_norm] using hqδ) s hs
    change ‖((q.1, Y q s, c q s) : P × X × ℝ) - (θ, y s, c0 s)‖ ≤ C * ‖((q.1, Y q t0, c q t0) : P × X × ℝ) - (θ, y t0, c0 t0)‖
      at this
    rw [ha, hnorm, Prod.mk_sub_mk, Prod.mk_sub_mk, Prod.norm_def, Prod.norm_def] at this
    exact (le_max_left _ _).trans ((le_max_right _ _).trans this)
  have hloss : ∀ l : X → ℝ, Differentiable ℝ l → ∀ s ∈ Icc t0 b,
      (fun q => l (Y q s) - l (y s) - fderiv ℝ l (y s) (u (q - (θ, x0)).1 (q - (θ, x0)).2 s)) =o[𝓝 (θ, x0)]
        fun q => q - (θ, x0) := by
    intro l hl s hs
    have hcont : Filter.Tendsto (fun q => Y q s) (𝓝 (θ, x0)) (𝓝 (y s)) := by
      have h0 : Filter.Tendsto (fun q => q - (θ, x0)) (𝓝 (θ, x0)) (𝓝 0) := by
        have : Continuous fun q : P × X => q - (θ, x0) := by fun_prop
        simpa using this.tendsto (θ, x0)
      have := ((hnear s hs).trans_tendsto h0).add_const (y s)
      simpa using this
    have h1 : (fun q => l (Y q s) - l (y s) - fderiv ℝ l (y s) (Y q s - y s)) =o[𝓝 (θ, x0)] fun q => q - (θ, x0) :=
      (((hl (y s)).hasFDerivAt.isLittleO).comp_tendsto hcont).trans_isBigO (hnear s hs)
    have h2 : (fun q => fderiv ℝ l (y s) (Y q s - y s - u (q - (θ, x0)).1 (q - (θ, x0)).2 s)) =o[𝓝 (θ, x0)]
        fun q => q - (θ, x0) := ((fderiv ℝ l (y s)).isBigO_comp _ _).trans_isLittleO (hoY s hs)
    refine (h1.add h2).congr_left fun q => ?_
    simp only [map_sub]
    ring
  have hsum : (fun q => (List.zipWith (fun l s => l (Y q s)) ℓ (t0 :: rest)).sum -
      (List.zipWith (fun l s => l (y s)) ℓ (t0 :: rest)).sum -
      (List.zipWith (fun g s => g (u (q - (θ, x0)).1 (q - (θ, x0)).2 s))
        (List.zipWith (fun l s => fderiv ℝ l (y s)) ℓ (t0 :: rest)) (t0 :: rest)).sum) =o[𝓝 (θ, x0)]
        fun q => q - (θ, x0) := by
    clear hvar hrun hlen hgt hinc hlast hsolve
    generalize t0 :: rest = ts at hmem
    induction ℓ generalizing ts with
    | nil => simp
    | cons l ℓ ih =>
      cases ts with
      | nil => simp
      | cons s ts =>
        have := (hloss l (hℓ l (by simp)) s (hmem s (by simp))).add
          (ih (fun l' hl' => hℓ l' (by simp [hl'])) ts (fun s' hs' => hmem s' (by simp [hs'])))
        refine this.congr_left fun q => ?_
        simp only [List.zipWith_cons_cons, List.sum_cons]
        ring
  rw [hasFDerivAt_iff_isLittleO]
  have htot := hsum.add hoc
  refine htot.congr' ?_ Filter.EventuallyEq.rfl
  filter_upwards [hY] with q hq
  obtain ⟨-, hcb, -⟩ := hc q hq
  have hk := hvar (u (q - (θ, x0)).1 (q - (θ, x0)).2) (q - (θ, x0)).1 (hu _ _)
  rw [hu0, ← heb] at hk
  rw [hcb, hc0b, ContinuousLinearMap.coprod_apply]
  linarith

/-- `C83_frechet` for `x' = θ x` at `θ = 2`, `x0 = 1`, outputs at `0, 1/2, 1` with the losses `x ↦ x²`. -/
example : ∃ μ lam d d', adjointBackward (growthSolve 2) (smoothAdjoint growth 2 none) [0, 1 / 2, 1]
      ([0, 1 / 2, 1].map fun t => Real.exp (2 * t) * 1) [0, 0, 0]
      (List.zipWith (fun l s => fderiv ℝ l (Real.exp (2 * s) * 1)) [fun x => x ^ 2, fun x => x ^ 2, fun x => x ^ 2]
        [0, 1 / 2, 1]) = .ok (μ, lam, d, d') ∧
    HasFDerivAt (fun q : ℝ × ℝ => (List.zipWith (fun l s => l (Real.exp (q.1 * s) * q.2))
        [fun x => x ^ 2, fun x => x ^ 2, fun x => x ^ 2] [0, 1 / 2, 1]).sum + ∫ _s in (0 : ℝ)..1, (0 : ℝ))
      (μ.coprod lam) (2, 1) := by
  have hF : ∀ (p : ℝ × ℝ), HasFDerivAt (fun q : ℝ × ℝ => q.1 * q.2)
      (p.1 • ContinuousLinearMap.snd ℝ ℝ ℝ + p.2 • ContinuousLinearMap.fst ℝ ℝ ℝ) p := fun p =>
    hasFDerivAt_fst.mul hasFDerivAt_snd
  refine C83_frechet (f := growth) (θ := 2) (x0 := 1) (dg := none) (G := fun _ _ => 0) (t0 := 0) (b := 1) ?_ ?_ ?_
    continuous_const ?_ (fun q t => Real.exp (q.1 * t) * q.2) ?_ (growthSolve_exact 2 _ 0 1)
    [1 / 2, 1] (by norm_num) rfl _ ?_ rfl _ rfl
  · have : (fun p : ℝ × ℝ × ℝ => fderiv ℝ (fun q : ℝ × ℝ => growth q.1 p.1 q.2) p.2) = fun p =>
        p.2.1 • ContinuousLinearMap.snd ℝ ℝ ℝ + p.2.2 • ContinuousLinearMap.fst ℝ ℝ ℝ := by
      funext p
      exact (hF p.2).fderiv
    rw [this]
    fun_prop
  · intro t
    unfold growth
    fun_prop
  · simpa [lossCot] using continuous_const
  · intro t x
    exact hasFDerivAt_const _ _
  · refine Filter.Eventually.of_forall fun q => ⟨by simp, fun t _ => ?_⟩
    have h1 : HasDerivAt (fun t : ℝ => q.1 * t) q.1 t := by simpa using (hasDerivAt_id t).const_mul q.1
    exact ((h1.exp.mul_const q.2).congr_deriv (by unfold growth; ring)).hasDerivWithinAt
  · intro l hl
    simp only [List.mem_cons, List.not_mem_nil, or_false, or_self] at hl
    subst hl
    fun_prop

end gradient

end Torchdyn
