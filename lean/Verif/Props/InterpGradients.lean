import Verif.Props.InterpOrder
import Verif.Props.Rk4Time

/-!
Property C141: gradients of losses over all outputs, computed with the interpolated adjoint of sensitivity.py:103-161 with
the same fixed-step solver in both passes and a natural cubic spline through the states of the forward pass.
-/

set_option linter.unusedSectionVars false
set_option linter.unusedSimpArgs false
set_option linter.unusedVariables false

namespace Torchdyn

open Spec Set
open scoped Topology

variable {X P : Type} [NormedAddCommGroup X] [NormedSpace ℝ X] [FiniteDimensional ℝ X]
  [NormedAddCommGroup P] [NormedSpace ℝ P] [FiniteDimensional ℝ P] {A A' : Type}

/-- `spline` returns the natural cubic spline through the given points, for increasing knots. (Assumption on
`natural_cubic_spline_coeffs` and `CubicSpline` of torchcde, which is not part of the repository.) -/
def NaturalSplines (spline : List ℝ → List X → Except PyErr (ℝ → X)) : Prop :=
  ∀ ts xs, ts.Pairwise (· < ·) → xs.length = ts.length → 2 ≤ ts.length →
    ∃ s, spline ts xs = .ok s ∧ NaturalSpline ts xs s

theorem exists_naturalSplines : ∃ spline : List ℝ → List X → Except PyErr (ℝ → X), NaturalSplines spline := by
  classical
  refine ⟨fun ts xs => if h : ∃ s, NaturalSpline ts xs s then .ok h.choose else .error .valueError, ?_⟩
  intro ts xs hinc _ _
  have h := exists_naturalSpline ts xs hinc
  exact ⟨h.choose, dif_pos h, h.choose_spec⟩

/-- Gradients of the loss `∑ᵢ wᵢ ℓ(tᵢ, x(tᵢ))` over all outputs, plus an integral loss, computed with the interpolated adjoint
have error `O(h ^ p)`: for every bound `M` there are `C` and `δ` such that on every increasing grid from `t0` to `T` with gaps
at most `h ≤ δ` and for all weights with `∑ᵢ |wᵢ| ≤ M`, the loss along the true solutions `Y` is differentiable in parameters
and initial state, and stepping forward over the times, drawing the spline `curve` through the computed states and stepping
backward with the cotangent equations along it, adding the gradients of the loss at the computed states, ends with `λ` and `μ`
that differ from the derivative by at most `C h ^ p`. On every grid that `odeint` accepts these are the states of the forward
pass and the gradients returned by the backward pass. -/
def InterpGradientOrder (p : ℕ) (solver : Solver (Except PyErr) ℝ X A) (args : A)
    (solverCot : Solver (Except PyErr) ℝ (CotS X P) A') (argsCot : A') (spline : List ℝ → List X → Except PyErr (ℝ → X))
    (f : P → ℝ → X → X) (θ : P) (dg : Option (ℝ → X → (X →L[ℝ] ℝ))) (G : ℝ → X → ℝ) (ℓ : ℝ → X → ℝ) (x0 : X) (t0 T : ℝ)
    (Y : P × X → ℝ → X) : Prop :=
  ∀ M : ℝ, ∃ C δ, 0 < δ ∧ ∀ (t1 : ℝ) (rest : List ℝ) (h : ℝ) (w : List ℝ), h ≤ δ → (t0 :: t1 :: rest).Pairwise (· < ·) →
    (t0 :: t1 :: rest).getLast? = some T →
    (∀ (k : ℕ) (t t' : ℝ), (t0 :: t1 :: rest)[k]? = some t → (t0 :: t1 :: rest)[k + 1]? = some t' → t' - t ≤ h) →
    w.length = (t0 :: t1 :: rest).length → (w.map fun c => |c|).sum ≤ M →
    ∃ (D : P × X →L[ℝ] ℝ) (φ : X → ℝ → ℝ → X) (ψ : CotS X P → ℝ → ℝ → CotS X P) (sol : List X) (curve : ℝ → X)
      (gx : List (X →L[ℝ] ℝ)) (gT : X →L[ℝ] ℝ) (S' : CotS X P),
      HasFDerivAt (fun q => (List.zipWith (fun c s => c * ℓ s (Y q s)) w (t0 :: t1 :: rest)).sum +
        ∫ s in t0..T, G s (Y q s)) D (θ, x0) ∧
      SteppedBy solver (f θ) args φ ∧ IsTrajectory φ x0 (t0 :: t1 :: rest) sol ∧
      spline (t0 :: t1 :: rest) sol = .ok curve ∧
      gx = List.zipWith (fun c p => c • fderiv ℝ (ℓ p.1) p.2) w ((t0 :: t1 :: rest).zip sol) ∧ gx.getLast? = some gT ∧
      SteppedBy solverCot (fun s w => -interpDynamics (smoothAdjoint f θ dg) curve (-s) w) argsCot ψ ∧
      backPass ψ (fun S g => (S.1 + g, S.2)) (t0 :: t1 :: rest) gx (rest.length + 1) (gT, 0) = some S' ∧
      ‖S'.2.coprod S'.1 - D‖ ≤ C * h ^ p ∧
      (Separated (t0 :: t1 :: rest) →
        odeintFixed (pureField (f θ)) x0 (t0 :: t1 :: rest) solver [] args = .ok (t0 :: t1 :: rest, sol) ∧
        interpBackward (fun g S ts => odeintFixed g S ts solverCot [] argsCot) spline (smoothAdjoint f θ dg)
          (t0 :: t1 :: rest) (t0 :: t1 :: rest) sol gx = .ok (S'.2, S'.1))

theorem coprod_cot_le (B : CotS X P) (Z : AdjS X P) : ‖B.2.coprod B.1 - Z.2.2.1.coprod Z.2.1‖ ≤ 2 * ‖B - cotOf Z‖ := by
  have e : B.2.coprod B.1 - Z.2.2.1.coprod Z.2.1 = (B - cotOf Z).2.coprod (B - cotOf Z).1 := by
    ext v <;> simp [cotOf]
  rw [e]
  refine ContinuousLinearMap.opNorm_le_bound _ (by positivity) fun v => ?_
  rw [ContinuousLinearMap.coprod_apply]
  refine (norm_add_le _ _).trans ?_
  have v1 := (ContinuousLinearMap.le_opNorm (B - cotOf Z).2 v.1).trans
    (mul_le_mul (norm_snd_le _) (norm_fst_le v) (norm_nonneg _) (norm_nonneg _))
  have v2 := (ContinuousLinearMap.le_opNorm (B - cotOf Z).1 v.2).trans
    (mul_le_mul (norm_fst_le _) (norm_snd_le v) (norm_nonneg _) (norm_nonneg _))
  linarith

set_option maxHeartbeats 1000000 in
-- many side conditions in one proof
theorem interp_gradients {p : ℕ} (hp : p ≠ 0) (hp2 : p ≤ 2) {f : P → ℝ → X → X}
    (hf : ContDiff ℝ 1 fun q : P × ℝ × X => f q.1 q.2.1 q.2.2) {θ : P} {x0 : X}
    {dg : Option (ℝ → X → (X →L[ℝ] ℝ))} (hdg : Continuous fun p : ℝ × X => lossCot dg p.1 p.2)
    {G : ℝ → X → ℝ} (hGc : Continuous fun p : ℝ × X => G p.1 p.2) (hG : ∀ t x, HasFDerivAt (G t) (lossCot dg t x) x)
    {ℓ : ℝ → X → ℝ} (hℓd : ∀ t, Differentiable ℝ (ℓ t)) (hℓ : ContDiff ℝ 1 fun p : ℝ × X => fderiv ℝ (ℓ p.1) p.2) {t0 T : ℝ}
    (htT : t0 < T) (Y : P × X → ℝ → X) (hY : ∀ᶠ q in 𝓝 (θ, x0), Y q t0 = q.2 ∧ SolvesOn (f q.1) (Y q) t0 T)
    {solver : Solver (Except PyErr) ℝ X A} {args : A} {solverCot : Solver (Except PyErr) ℝ (CotS X P) A'} {argsCot : A'}
    {spline : List ℝ → List X → Except PyErr (ℝ → X)} (hspl : NaturalSplines spline)
    (hF : ConvergesWithOrder p solver args (f θ) (Y (θ, x0)) t0 T) {φ : X → ℝ → ℝ → X} (hφ : SteppedBy solver (f θ) args φ)
    (hφE : ∀ R, EulerLike φ (f θ) R t0 T) {ψ : (ℝ → X) → CotS X P → ℝ → ℝ → CotS X P}
    (hψ : ∀ curve, SteppedBy solverCot (fun s w => -interpDynamics (smoothAdjoint f θ dg) curve (-s) w) argsCot (ψ curve))
    (hB : ∀ R, InterpStepNear p ψ f θ dg (Y (θ, x0)) R t0 T) :
    InterpGradientOrder p solver args solverCot argsCot spline f θ dg G ℓ x0 t0 T Y := by
  intro M
  have hd : Differentiable ℝ fun q : P × ℝ × X => f q.1 q.2.1 q.2.2 := hf.differentiable (by simp)
  obtain ⟨hy0, hy⟩ := hY.self_of_nhds
  have hfc : Continuous fun p : ℝ × P × X => fderiv ℝ (fun q : P × X => f q.1 p.1 q.2) p.2 := by
    have e : (fun p : ℝ × P × X => fderiv ℝ (fun q : P × X => f q.1 p.1 q.2) p.2) = fun p =>
        (fderiv ℝ (fun q : P × ℝ × X => f q.1 q.2.1 q.2.2) (p.2.1, p.1, p.2.2)).comp
          ((ContinuousLinearMap.fst ℝ P X).prod ((0 : P × X →L[ℝ] ℝ).prod (ContinuousLinearMap.snd ℝ P X))) := by
      funext p
      exact (partial_q hd p.1 p.2).fderiv
    rw [e]
    have h1 : Continuous fun p : ℝ × P × X => fderiv ℝ (fun q : P × ℝ × X => f q.1 q.2.1 q.2.2) (p.2.1, p.1, p.2.2) :=
      (hf.continuous_fderiv (by simp)).comp (by fun_prop : Continuous fun p : ℝ × P × X => ((p.2.1, p.1, p.2.2) : P × ℝ × X))
    exact h1.clm_comp continuous_const
  obtain ⟨solve, hsolve⟩ := exists_exact_solve hf θ hdg hy
  have hexact := fun rest' h1 h2 ls h3 h4 gt h5 => C83_frechet hfc (fun t q => (partial_q hd t q).differentiableAt) hdg hGc hG
    Y hY hsolve rest' h1 h2 ls h3 h4 gt h5
  generalize hyd : Y (θ, x0) = y at *
  have hyc : ContinuousOn y (Icc t0 T) := fun t ht => (hy t ht).continuousWithinAt
  obtain ⟨B, hB0, hgrow⟩ := adjoint_growth (P := P) hf θ hdg hyc
  obtain ⟨Ry, hRy⟩ := isCompact_Icc.exists_bound_of_continuousOn hyc
  have hRy0 : 0 ≤ Ry := (norm_nonneg _).trans (hRy t0 ⟨le_rfl, htT.le⟩)
  obtain ⟨gl, -, ⟨Kl, hKl0, hKl⟩, ⟨Ml, hMl⟩, hgl⟩ := exists_cutoff (n := 1) one_ne_zero (by exact_mod_cast hℓ)
    (R := Ry + |t0| + |T| + 1) (by positivity)
  have hfT : ContDiff ℝ 1 fun x => f θ T x := hf.comp (by fun_prop : ContDiff ℝ 1 fun x : X => ((θ, T, x) : P × ℝ × X))
  obtain ⟨gf, -, ⟨Kf, hKf0, hKf⟩, ⟨Mf, hMf⟩, hgf⟩ := exists_cutoff (n := 1) one_ne_zero (by exact_mod_cast hfT)
    (R := Ry + 1) (by positivity)
  obtain ⟨Cs, δs, hCs, hδs, Hs⟩ := spline_near_solution (f := f θ)
    (hf.comp (by fun_prop : ContDiff ℝ 1 fun p : ℝ × X => ((θ, p.1, p.2) : P × ℝ × X))) hy hφE
  have hMl0 : 0 ≤ Ml := (norm_nonneg _).trans (hMl 0)
  have hMf0 : 0 ≤ Mf := (norm_nonneg _).trans (hMf 0)
  obtain ⟨C1, δ1, hδ1, H1⟩ := hF
  generalize hC1' : max C1 0 = C1'
  have hC10 : 0 ≤ C1' := hC1' ▸ le_max_right _ _
  have hC11 : C1 ≤ C1' := hC1' ▸ le_max_left _ _
  generalize hM' : max M 0 = M'
  have hM0 : 0 ≤ M' := hM' ▸ le_max_right _ _
  have hMM : M ≤ M' := hM' ▸ le_max_left _ _
  generalize hκ : (1 + Kl) * (1 + Kf) * C1' = κ
  have hκ0 : 0 ≤ κ := by rw [← hκ]; positivity
  have hκ1 : C1' ≤ κ := by
    rw [← hκ]
    exact le_mul_of_one_le_left hC10 (one_le_mul_of_one_le_of_one_le (by linarith) (by linarith))
  have hκ2 : Kl * C1' ≤ κ := by
    rw [← hκ]
    refine mul_le_mul_of_nonneg_right ?_ hC10
    have := mul_nonneg hKl0 hKf0
    linarith
  have hκ3 : Kf * C1' ≤ κ := by
    rw [← hκ]
    refine mul_le_mul_of_nonneg_right ?_ hC10
    have := mul_nonneg hKl0 hKf0
    linarith
  generalize hQ : (1 + Mf) * (1 + (1 + Ml) * M') = Q
  have hQ0 : 0 ≤ Q := by rw [← hQ]; positivity
  obtain ⟨C2, L, δ2, hC2, hL, hδ2, H2⟩ := hB (max Ry (Real.exp (B * (T - t0)) * Q))
  generalize hκs : Cs * (1 + C1') = κs
  have hκs0 : 0 ≤ κs := by rw [← hκs]; positivity
  generalize hE : Real.exp (L * (T - t0)) * (κ * Q + C2 * (1 + κs) * (T - t0)) = E
  have hE0 : 0 ≤ E := by
    rw [← hE]
    have : 0 ≤ T - t0 := by linarith
    positivity
  refine ⟨2 * E, min (min (min δ1 δ2) (min δs (1 / (1 + κs)))) (min 1 (min (1 / (1 + C1')) (1 / (1 + E)))),
    lt_min (lt_min (lt_min hδ1 hδ2) (lt_min hδs (by positivity))) (lt_min one_pos (lt_min (by positivity) (by positivity))), ?_⟩
  intro t1 rest h w hh hmono hlast hgap hwlen hwM
  have hh1 : h ≤ δ1 := hh.trans ((min_le_left _ _).trans ((min_le_left _ _).trans (min_le_left _ _)))
  have hh2 : h ≤ δ2 := hh.trans ((min_le_left _ _).trans ((min_le_left _ _).trans (min_le_right _ _)))
  have hh6 : h ≤ δs := hh.trans ((min_le_left _ _).trans ((min_le_right _ _).trans (min_le_left _ _)))
  have hh7 : h ≤ 1 / (1 + κs) := hh.trans ((min_le_left _ _).trans ((min_le_right _ _).trans (min_le_right _ _)))
  have hh3 : h ≤ 1 := hh.trans ((min_le_right _ _).trans (min_le_left _ _))
  have hh4 : h ≤ 1 / (1 + C1') := hh.trans ((min_le_right _ _).trans ((min_le_right _ _).trans (min_le_left _ _)))
  have hh5 : h ≤ 1 / (1 + E) := hh.trans ((min_le_right _ _).trans ((min_le_right _ _).trans (min_le_right _ _)))
  rw [le_div_iff₀ (by positivity)] at hh4 hh5 hh7
  have h01 : t0 < t1 := (List.pairwise_cons.1 hmono).1 t1 (by simp)
  have hh0 : 0 ≤ h := (sub_nonneg.2 h01.le).trans (hgap 0 t0 t1 rfl rfl)
  have hhp : h ^ p ≤ h := by
    calc h ^ p ≤ h ^ 1 := pow_le_pow_of_le_one hh0 hh3 (by omega)
      _ = h := pow_one h
  have hhp0 : 0 ≤ h ^ p := by positivity
  -- the exact backward pass
  obtain ⟨μ', lam', d1, d1', hrun', hD⟩ := hexact (t1 :: rest) hmono hlast
    (List.zipWith (fun c s => fun x => c * ℓ s x) w (t0 :: t1 :: rest)) (by
      intro l hl
      rw [List.mem_iff_getElem?] at hl
      obtain ⟨j, hj⟩ := hl
      rw [List.getElem?_zipWith] at hj
      split at hj
      · cases hj
        exact (hℓd _).const_mul _
      · simp at hj) (by simp [hwlen]) (List.replicate (rest.length + 2) 0) (by simp)
  rw [zipWith_zipWith_left] at hrun'
  simp only [zipWith_zipWith_left] at hD
  generalize hts : t0 :: t1 :: rest = ts at *
  have hlen : ts.length = rest.length + 2 := by rw [← hts]; simp
  have hlastT : ts[rest.length + 1]? = some T := by
    rw [List.getLast?_eq_getElem?, hlen] at hlast
    exact hlast
  have hle : ∀ t ∈ ts, t0 ≤ t ∧ t ≤ T := by
    intro t ht
    obtain ⟨j, hj, rfl⟩ := List.getElem_of_mem ht
    constructor
    · have hm0 : (t0 :: t1 :: rest).Pairwise (· < ·) := by rw [hts]; exact hmono
      have ht' : ts[j] ∈ t0 :: t1 :: rest := by rw [hts]; exact List.getElem_mem hj
      rcases List.mem_cons.1 ht' with he | hm
      · exact he.ge
      · exact ((List.pairwise_cons.1 hm0).1 _ hm).le
    · obtain ⟨hl', hTe⟩ := List.getElem?_eq_some_iff.1 hlastT
      rw [← hTe]
      rcases Nat.lt_or_ge j (rest.length + 1) with hlt | hge
      · exact (List.pairwise_iff_getElem.1 hmono j (rest.length + 1) hj hl' hlt).le
      · have : j = rest.length + 1 := by omega
        subst this
        exact le_rfl
  -- forward pass
  obtain ⟨φ', sol, hφ', htraj, hfwd, hbd⟩ := H1 t1 rest h hh1 (by rw [hts]; exact hmono) (by rw [hts]; exact fun t ht => (hle t ht).2)
    (by rw [hts]; exact hgap)
  rw [hts] at htraj hfwd hbd
  have hφeq : φ' = φ := by
    funext x t dt
    obtain ⟨_, _, e1⟩ := hφ' x t dt
    obtain ⟨_, _, e2⟩ := hφ x t dt
    rw [e1] at e2
    injection e2 with e2
    injection e2 with _ e2 _
  rw [hφeq] at htraj
  have hsl : sol.length = ts.length := htraj.length_eq
  have hC1h : C1' * h ^ p ≤ 1 := by
    have : C1' * h ^ p ≤ C1' * h := mul_le_mul_of_nonneg_left hhp hC10
    linarith
  have hxb : ∀ (k : ℕ) (t : ℝ) (x : X), ts[k]? = some t → sol[k]? = some x → ‖x - y t‖ ≤ C1' * h ^ p := fun k t x hk hx =>
    (hbd k t x hk hx).trans (mul_le_mul_of_nonneg_right hC11 hhp0)
  -- the spline
  obtain ⟨curve, hcrun, hcns⟩ := hspl ts sol hmono hsl (by omega)
  have hκh : κs * h ^ p ≤ 1 := by
    have : κs * h ^ p ≤ κs * h := mul_le_mul_of_nonneg_left hhp hκs0
    linarith
  have hcurve : ∀ r ∈ Icc t0 T, ‖curve r - y r‖ ≤ κs * h ^ p := by
    intro r hr
    have h1 := Hs t1 rest h (C1' * h ^ p) (y t0) sol curve hh6 hC1h (by rw [hts]; exact hmono) (by rw [hts]; exact hlast)
      (by rw [hts]; exact hgap) (by rw [hts]; exact htraj) (by rw [hts]; exact hxb) (by rw [hts]; exact hcns) r hr
    refine h1.trans ?_
    have h2 : h ^ 2 ≤ h ^ p := pow_le_pow_of_le_one hh0 hh3 hp2
    rw [← hκs, mul_assoc]
    refine mul_le_mul_of_nonneg_left ?_ hCs
    linarith
  have hyb : ∀ t ∈ ts, ‖y t‖ ≤ Ry := fun t ht => hRy t (hle t ht)
  have hxR : ∀ (k : ℕ) (t : ℝ) (x : X), ts[k]? = some t → sol[k]? = some x → ‖x‖ ≤ Ry + 1 := by
    intro k t x hk hx
    have h1 := hxb k t x hk hx
    have h2 := hyb t (List.mem_of_getElem? hk)
    have h3 : ‖x‖ ≤ ‖x - y t‖ + ‖y t‖ := by
      have := norm_add_le (x - y t) (y t)
      simpa using this
    linarith
  have hpair : ∀ t x, t ∈ ts → ‖x‖ ≤ Ry + 1 → ‖((t, x) : ℝ × X)‖ ≤ Ry + |t0| + |T| + 1 := by
    intro t x ht hx
    have h1 := hle t ht
    rw [Prod.norm_def]
    refine max_le ?_ ?_
    · simp only [Real.norm_eq_abs]
      rw [abs_le]
      have := neg_abs_le t0
      have := le_abs_self T
      constructor <;> [(have := abs_nonneg T); (have := abs_nonneg t0)] <;> linarith
    · have := abs_nonneg t0
      have := abs_nonneg T
      simp only
      linarith
  -- the cotangents of the two passes
  generalize hgx : List.zipWith (fun c p => c • fderiv ℝ (ℓ p.1) p.2) w (ts.zip sol) = gx
  generalize hgx' : List.zipWith (fun c s => fderiv ℝ (fun x => c * ℓ s x) (y s)) w ts = gx' at hrun'
  generalize hω : w.map (fun c => |c| * (1 + Ml)) = ω
  have hω0 : ∀ a ∈ ω, 0 ≤ a := by
    rw [← hω]
    intro a ha
    obtain ⟨c, -, rfl⟩ := List.mem_map.1 ha
    positivity
  have hωs : ω.sum ≤ (1 + Ml) * M' := by
    rw [← hω, List.sum_map_mul_right, mul_comm]
    exact mul_le_mul_of_nonneg_left (hwM.trans hMM) (by positivity)
  have hcot : ∀ j < ts.length, ∃ a a' o, gx[j]? = some a ∧ gx'[j]? = some a' ∧ ω[j]? = some o ∧ ‖a'‖ ≤ o ∧
      ‖a - a'‖ ≤ o * (κ * h ^ p) := by
    intro j hj
    have hjw : j < w.length := by omega
    have hjs : j < sol.length := by omega
    refine ⟨w[j] • fderiv ℝ (ℓ ts[j]) sol[j], w[j] • fderiv ℝ (ℓ ts[j]) (y ts[j]), |w[j]| * (1 + Ml), ?_, ?_, ?_, ?_, ?_⟩
    · rw [← hgx, List.getElem?_zipWith, List.getElem?_eq_getElem hjw, List.getElem?_eq_getElem (by simp; omega)]
      simp
    · rw [← hgx', List.getElem?_zipWith, List.getElem?_eq_getElem hjw, List.getElem?_eq_getElem hj]
      simp only [Option.some.injEq]
      exact fderiv_const_mul (hℓd _ _) _
    · rw [← hω, List.getElem?_map, List.getElem?_eq_getElem hjw]
      rfl
    · rw [norm_smul, Real.norm_eq_abs]
      refine mul_le_mul_of_nonneg_left ?_ (abs_nonneg _)
      have h1 := hgl (ts[j], y ts[j]) (hpair _ _ (List.getElem_mem hj) (by linarith [hyb _ (List.getElem_mem hj)]))
      simp only at h1
      rw [h1]
      linarith [hMl (ts[j], y ts[j])]
    · rw [← smul_sub, norm_smul, Real.norm_eq_abs, mul_assoc]
      refine mul_le_mul_of_nonneg_left ?_ (abs_nonneg _)
      have ht' : ts[j]? = some ts[j] := List.getElem?_eq_getElem hj
      have hx' : sol[j]? = some sol[j] := List.getElem?_eq_getElem hjs
      have h1 := hgl (ts[j], y ts[j]) (hpair _ _ (List.getElem_mem hj) (by linarith [hyb _ (List.getElem_mem hj)]))
      have h2 := hgl (ts[j], sol[j]) (hpair _ _ (List.getElem_mem hj) (hxR j _ _ ht' hx'))
      simp only at h1 h2
      rw [h1, h2]
      have h3 : ‖((ts[j], sol[j]) : ℝ × X) - (ts[j], y ts[j])‖ = ‖sol[j] - y ts[j]‖ := by
        rw [Prod.mk_sub_mk, sub_self, Prod.norm_def]
        simp
      calc ‖gl (ts[j], sol[j]) - gl (ts[j], y ts[j])‖ ≤ Kl * ‖sol[j] - y ts[j]‖ := h3 ▸ hKl _ _
        _ ≤ Kl * (C1' * h ^ p) := mul_le_mul_of_nonneg_left (hxb j _ _ ht' hx') hKl0
        _ = Kl * C1' * h ^ p := by ring
        _ ≤ κ * h ^ p := mul_le_mul_of_nonneg_right hκ2 hhp0
        _ ≤ (1 + Ml) * (κ * h ^ p) := le_mul_of_one_le_left (by positivity) (by linarith)
  -- the start of the backward pass
  obtain ⟨a, a', o, hga, hga', hoo, ho1, ho2⟩ := hcot (rest.length + 1) (by omega)
  obtain ⟨xT, hxT⟩ : ∃ xT, sol[rest.length + 1]? = some xT := ⟨_, List.getElem?_eq_getElem (by omega)⟩
  have ho0 : 0 ≤ o := hω0 o (List.mem_of_getElem? hoo)
  have hTm : T ∈ ts := List.mem_of_getElem? hlastT
  have hfy : f θ T (y T) = gf (y T) := hgf (y T) (by linarith [hyb T hTm])
  have hny : ‖f θ T (y T)‖ ≤ Mf := hfy ▸ hMf _
  have hMo := mul_nonneg hMf0 ho0
  have hσe : (1 + Mf) * (1 + o) = 1 + o + Mf + Mf * o := by ring
  have hσ1 : 1 ≤ (1 + Mf) * (1 + o) := by linarith
  have hσ2 : o ≤ (1 + Mf) * (1 + o) := by linarith
  have hS0 : ‖((a, 0) : CotS X P) - cotOf (y T, a', 0, a' (f θ T (y T)))‖ ≤ κ * h ^ p * ((1 + Mf) * (1 + o)) := by
    have hkh : 0 ≤ κ * h ^ p := by positivity
    rw [cotOf, Prod.mk_sub_mk, Prod.norm_def, sub_self]
    refine max_le ?_ ?_
    · refine ho2.trans ?_
      rw [mul_comm]
      exact mul_le_mul_of_nonneg_left hσ2 hkh
    · simpa using mul_nonneg hkh (by linarith)
  have hZ0 : ‖((a', 0, a' (f θ T (y T))) : (X →L[ℝ] ℝ) × (P →L[ℝ] ℝ) × ℝ)‖ + 1 ≤ (1 + Mf) * (1 + o) := by
    have h1 : ‖a' (f θ T (y T))‖ ≤ o * Mf := (a'.le_opNorm _).trans (mul_le_mul ho1 hny (norm_nonneg _) ho0)
    have h2 : ‖((a', 0, a' (f θ T (y T))) : (X →L[ℝ] ℝ) × (P →L[ℝ] ℝ) × ℝ)‖ ≤ o + o * Mf := by
      rw [Prod.norm_def, Prod.norm_def]
      have := mul_nonneg ho0 hMf0
      refine max_le (by simp only; linarith) (max_le (by simp only [norm_zero]; linarith) (by simp only; linarith))
    linarith
  have htake : (ω.take (rest.length + 1)).sum + o = ω.sum := by
    have hωl : ω.length = rest.length + 1 + 1 := by rw [← hω, List.length_map, hwlen, hlen]
    have h1 : ω.take (rest.length + 1 + 1) = ω := by rw [← hωl]; exact List.take_length
    conv_rhs => rw [← h1, List.take_add_one, hoo]
    simp
  have hsmall : Real.exp (L * (T - t0)) * (κ * h ^ p * Q + C2 * (h ^ p + κs * h ^ p) * (T - t0)) = E * h ^ p := by
    rw [← hE]
    ring
  have hstep : ∀ (z : ℝ → AdjS X P) (tLo tHi : ℝ) (b : CotS X P), t0 ≤ tLo → tLo < tHi → tHi ≤ T → tHi - tLo ≤ h →
      SolvesOn (adjointDynamics (smoothAdjoint f θ dg)) z tLo tHi → (∀ t ∈ Icc tLo tHi, (z t).1 = y t) →
      (∀ t ∈ Icc tLo tHi, ‖z t‖ ≤ max Ry (Real.exp (B * (T - t0)) * Q)) → ‖b - cotOf (z tHi)‖ ≤ 1 →
      ‖ψ curve b (-tHi) (tHi - tLo) - cotOf (z tLo)‖ ≤
        (1 + L * (tHi - tLo)) * ‖b - cotOf (z tHi)‖ + C2 * (h ^ p + κs * h ^ p) * (tHi - tLo) := by
    intro z tLo tHi b a1 a2 a3 a4 a5 a6 a7 a8
    refine (H2 curve _ hκh hcurve z tLo tHi b a1 a2 a3 (a4.trans hh2) a5 a6 a7 a8).trans (add_le_add le_rfl ?_)
    have hg0 : 0 ≤ tHi - tLo := by linarith
    rw [mul_right_comm]
    refine mul_le_mul_of_nonneg_right (mul_le_mul_of_nonneg_left (add_le_add ?_ le_rfl) hC2) hg0
    exact pow_le_pow_left₀ hg0 a4 p
  obtain ⟨S', Z', e', hl0, hl1, hl2, hfin⟩ := interpLoop_order (E := C2 * (h ^ p + κs * h ^ p)) (L := L) (ε := κ * h ^ p) hf hy
    (fun t ht => (hRy t ht).trans (le_max_left _ _)) hB0 hgrow (by positivity) hL (by positivity) hstep (le_max_right _ _) (by
      rw [hsmall]
      have : E * h ^ p ≤ E * h := mul_le_mul_of_nonneg_left hhp hE0
      linarith) (hψ curve) hsolve hmono hle hgap (gt := List.replicate (rest.length + 2) 0)
    (fun j hj => by rw [List.getElem?_replicate, if_pos (by omega)]) hω0 hcot (rest.length + 1)
    (a, 0) (y T, a', 0, a' (f θ T (y T))) ((1 + Mf) * (1 + o)) (a' (f θ T (y T))) T hlastT rfl
    (by simpa using hZ0) (by simpa using hS0) (by
      rw [← hQ]
      have h1 := take_sum_nonneg hω0 (rest.length + 1)
      have h2 : (1 + Mf) * (1 + o) + (ω.take (rest.length + 1)).sum ≤ (1 + Mf) * (1 + ω.sum) := by
        have h3 := mul_nonneg hMf0 h1
        have h4 : (1 + Mf) * (1 + ω.sum) = (1 + Mf) * (1 + o) + (ω.take (rest.length + 1)).sum +
            Mf * (ω.take (rest.length + 1)).sum := by
          rw [← htake]
          ring
        linarith
      exact h2.trans (mul_le_mul_of_nonneg_left (by linarith) (by linarith)))
  rw [hsmall] at hfin
  have hgl1 : gx.getLast? = some a := by
    rw [List.getLast?_eq_getElem?, ← hgx, List.length_zipWith, List.length_zip, hsl, hwlen, min_self, min_self, hlen, hgx]
    exact hga
  have hgl2 : gx'.getLast? = some a' := by
    rw [List.getLast?_eq_getElem?, ← hgx', List.length_zipWith, hwlen, min_self, hlen, hgx']
    exact hga'
  have hsl1 : sol.getLast? = some xT := by
    rw [List.getLast?_eq_getElem?, hsl, hlen]
    exact hxT
  have hsl2 : (ts.map y).getLast? = some (y T) := by rw [List.getLast?_map, hlast]; rfl
  have hμ : μ' = Z'.2.2.1 ∧ lam' = Z'.2.1 := by
    unfold adjointBackward at hrun'
    simp only [getLastItem, hsl2, hgl2, hlast, pure_bind, hlen, Nat.add_succ_sub_one] at hrun'
    change (adjointLoop solve (smoothAdjoint f θ dg) ts _ _ (rest.length + 1)
      (y T, a', 0, a' (f θ T (y T))) (a' (f θ T (y T))) >>= _) = _ at hrun'
    rw [hl2] at hrun'
    have := Except.ok.inj hrun'
    simp only [Prod.mk.injEq] at this
    exact ⟨this.1.symm, this.2.1.symm⟩
  have hy0' : y t0 = x0 := hy0
  rw [hy0'] at htraj hfwd
  refine ⟨μ'.coprod lam', φ, ψ curve, sol, curve, gx, a, S', hD, hφ, ?_, hcrun, hgx.symm, hgl1, hψ curve, hl0, ?_,
    fun hsep => ⟨hfwd hsep, ?_⟩⟩
  · exact htraj
  · rw [hμ.1, hμ.2]
    refine (coprod_cot_le S' Z').trans ?_
    linarith
  · have hl1 := hl1 hsep
    unfold interpBackward
    simp only [getLastItem, hsl1, hgl1, pure_bind, hlen, Nat.add_succ_sub_one]
    rw [hcrun]
    change (interpLoop (fun g S ts => odeintFixed g S ts solverCot [] argsCot) (smoothAdjoint f θ dg) curve ts _
      (rest.length + 1) (a, 0) >>= _) = _
    rw [hl1]
    rfl

/-- **C141.** Interpolated adjoint with `euler` in both passes: gradients of losses over all outputs are computed with first
order, uniformly in the number of outputs. -/
theorem C141_euler {f : P → ℝ → X → X} (hf : ContDiff ℝ 2 fun q : P × ℝ × X => f q.1 q.2.1 q.2.2) {θ : P} {x0 : X}
    {dg : Option (ℝ → X → (X →L[ℝ] ℝ))} (hdg : ContDiff ℝ 1 fun p : ℝ × X => lossCot dg p.1 p.2)
    {G : ℝ → X → ℝ} (hGc : Continuous fun p : ℝ × X => G p.1 p.2) (hG : ∀ t x, HasFDerivAt (G t) (lossCot dg t x) x)
    {ℓ : ℝ → X → ℝ} (hℓd : ∀ t, Differentiable ℝ (ℓ t)) (hℓ : ContDiff ℝ 1 fun p : ℝ × X => fderiv ℝ (ℓ p.1) p.2) {t0 T : ℝ}
    (htT : t0 < T) (Y : P × X → ℝ → X) (hY : ∀ᶠ q in 𝓝 (θ, x0), Y q t0 = q.2 ∧ SolvesOn (f q.1) (Y q) t0 T)
    {spline : List ℝ → List X → Except PyErr (ℝ → X)} (hspl : NaturalSplines spline) (args : A) (argsCot : A') :
    InterpGradientOrder 1 (eulerSolver (Except PyErr) ℝ X A) args (eulerSolver (Except PyErr) ℝ (CotS X P) A') argsCot spline
      f θ dg G ℓ x0 t0 T Y := by
  have hf1 : ContDiff ℝ 1 fun q : P × ℝ × X => f q.1 q.2.1 q.2.2 := hf.of_le (by norm_num)
  have hfx : ContDiff ℝ 1 fun p : ℝ × X => f θ p.1 p.2 :=
    hf1.comp (by fun_prop : ContDiff ℝ 1 fun p : ℝ × X => ((θ, p.1, p.2) : P × ℝ × X))
  refine interp_gradients one_ne_zero one_le_two hf1 hdg.continuous hGc hG hℓd hℓ htT Y hY hspl
    (C106_euler (f θ) hfx _ t0 T hY.self_of_nhds.2 args).converges (euler_steppedBy _ args)
    (fun R => consistent_eulerLike hfx [(0, [])] [1] (by simp) (by simp) (fun x t h => by simp [rkStagesT, comb]) _ _ R)
    (ψ := fun curve x t dt => x + dt • -interpDynamics (smoothAdjoint f θ dg) curve (-t) x)
    (fun curve => euler_steppedBy _ argsCot)
    (fun R => consistent_interp_step hf hdg hY.self_of_nhds.2 [(0, [])] [1] (by simp) (by simp) (by simp)
      (fun curve B t h => by simp [rkStagesT, comb]) R)

/-- **C141.** With `midpoint` in both passes the gradient is computed with second order. -/
theorem C141_midpoint {f : P → ℝ → X → X} (hf : ContDiff ℝ 3 fun q : P × ℝ × X => f q.1 q.2.1 q.2.2) {θ : P} {x0 : X}
    {dg : Option (ℝ → X → (X →L[ℝ] ℝ))} (hdg : ContDiff ℝ 2 fun p : ℝ × X => lossCot dg p.1 p.2)
    {G : ℝ → X → ℝ} (hGc : Continuous fun p : ℝ × X => G p.1 p.2) (hG : ∀ t x, HasFDerivAt (G t) (lossCot dg t x) x)
    {ℓ : ℝ → X → ℝ} (hℓd : ∀ t, Differentiable ℝ (ℓ t)) (hℓ : ContDiff ℝ 1 fun p : ℝ × X => fderiv ℝ (ℓ p.1) p.2) {t0 T : ℝ}
    (htT : t0 < T) (Y : P × X → ℝ → X) (hY : ∀ᶠ q in 𝓝 (θ, x0), Y q t0 = q.2 ∧ SolvesOn (f q.1) (Y q) t0 T)
    {spline : List ℝ → List X → Except PyErr (ℝ → X)} (hspl : NaturalSplines spline) (args : A) (argsCot : A') :
    InterpGradientOrder 2 (midpointSolver (Except PyErr) ℝ X A) args (midpointSolver (Except PyErr) ℝ (CotS X P) A') argsCot
      spline f θ dg G ℓ x0 t0 T Y := by
  have hf1 : ContDiff ℝ 1 fun q : P × ℝ × X => f q.1 q.2.1 q.2.2 := hf.of_le (by norm_num)
  have hf2 : ContDiff ℝ 2 fun q : P × ℝ × X => f q.1 q.2.1 q.2.2 := hf.of_le (by norm_num)
  have hfx : ContDiff ℝ 1 fun p : ℝ × X => f θ p.1 p.2 :=
    hf1.comp (by fun_prop : ContDiff ℝ 1 fun p : ℝ × X => ((θ, p.1, p.2) : P × ℝ × X))
  refine interp_gradients two_ne_zero le_rfl hf1 hdg.continuous hGc hG hℓd hℓ htT Y hY hspl
    (C106_midpoint (f θ) (hf2.comp (by fun_prop : ContDiff ℝ 2 fun p : ℝ × X => ((θ, p.1, p.2) : P × ℝ × X))) _ t0 T
      hY.self_of_nhds.2 args).converges (midpoint_steppedBy _ args)
    (fun R => consistent_eulerLike hfx [(0, []), (1 / 2, [1 / 2])] [0, 1] (by simp) (by simp)
      (fun x t h => by simp [rkStagesT, comb, smul_smul, mul_comm]) _ _ R)
    (ψ := fun curve x t dt => x + dt • -interpDynamics (smoothAdjoint f θ dg) curve (-(t + (1 / 2 : ℝ) * dt))
      (x + ((1 / 2 : ℝ) * dt) • -interpDynamics (smoothAdjoint f θ dg) curve (-t) x))
    (fun curve => midpoint_steppedBy (fun s w => -interpDynamics (smoothAdjoint f θ dg) curve (-s) w) argsCot)
    (fun R => midpoint_interp_step hf hdg hY.self_of_nhds.2 (fun curve B t h => rfl) R)

/-- **C141 (partial: first order).** With `rk4` in both passes the gradient is computed with first order, for all fields with
two continuous derivatives. Missing: higher orders, which `rk4` does not reach even for autonomous fields
(`C141_rk4_refuted` in `Rk4Gradients.lean`). -/
theorem C141_rk4_partial {f : P → ℝ → X → X} (hf : ContDiff ℝ 2 fun q : P × ℝ × X => f q.1 q.2.1 q.2.2) {θ : P} {x0 : X}
    {dg : Option (ℝ → X → (X →L[ℝ] ℝ))} (hdg : ContDiff ℝ 1 fun p : ℝ × X => lossCot dg p.1 p.2)
    {G : ℝ → X → ℝ} (hGc : Continuous fun p : ℝ × X => G p.1 p.2) (hG : ∀ t x, HasFDerivAt (G t) (lossCot dg t x) x)
    {ℓ : ℝ → X → ℝ} (hℓd : ∀ t, Differentiable ℝ (ℓ t)) (hℓ : ContDiff ℝ 1 fun p : ℝ × X => fderiv ℝ (ℓ p.1) p.2) {t0 T : ℝ}
    (htT : t0 < T) (Y : P × X → ℝ → X) (hY : ∀ᶠ q in 𝓝 (θ, x0), Y q t0 = q.2 ∧ SolvesOn (f q.1) (Y q) t0 T)
    {spline : List ℝ → List X → Except PyErr (ℝ → X)} (hspl : NaturalSplines spline) (args : A) (argsCot : A') :
    InterpGradientOrder 1 (rk4Solver (Except PyErr) ℝ X A) args (rk4Solver (Except PyErr) ℝ (CotS X P) A') argsCot spline
      f θ dg G ℓ x0 t0 T Y := by
  have hf1 : ContDiff ℝ 1 fun q : P × ℝ × X => f q.1 q.2.1 q.2.2 := hf.of_le (by norm_num)
  have hfx : ContDiff ℝ 1 fun p : ℝ × X => f θ p.1 p.2 :=
    hf1.comp (by fun_prop : ContDiff ℝ 1 fun p : ℝ × X => ((θ, p.1, p.2) : P × ℝ × X))
  refine interp_gradients one_ne_zero one_le_two hf1 hdg.continuous hGc hG hℓd hℓ htT Y hY hspl
    ((C110_rk4 (f θ) hfx t0 T args).near hY.self_of_nhds.2).converges (rk4_steppedBy _ args)
    (fun R => consistent_eulerLike hfx [(0, []), (0, [1 / 2]), (1 / 2, [0, 1 / 2]), (1 / 2, [0, 0, 1])] [1 / 6, 1 / 3, 1 / 3, 1 / 6]
      (by simp) (by norm_num) (fun x t h => rk4_rkT _ x t h) _ _ R)
    (ψ := fun curve => rk4Update fun s w => -interpDynamics (smoothAdjoint f θ dg) curve (-s) w)
    (fun curve => rk4_steppedBy _ argsCot)
    (fun R => consistent_interp_step hf hdg hY.self_of_nhds.2
      [(0, []), (0, [1 / 2]), (1 / 2, [0, 1 / 2]), (1 / 2, [0, 0, 1])] [1 / 6, 1 / 3, 1 / 3, 1 / 6] (by simp) (by norm_num)
      (by norm_num)
      (fun curve B t h => by rw [rk4_rkT]) R)

end Torchdyn
