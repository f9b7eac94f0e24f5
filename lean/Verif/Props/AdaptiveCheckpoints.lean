import Verif.Props.AdaptiveGradients

/-!
Property C148, losses over all outputs: gradients computed with `dopri5` in both passes. The backward pass of `torchdyn/numerics/sensitivity.py:77-98` solves one adjoint problem per interval of the time grid and adds the
cotangent of each output. With `dopri5` in both passes (the default of `NeuralODE`) the computed gradients of
`∑ᵢ wᵢ ℓ(tᵢ, x(tᵢ))` have fifth order, for all numbers of outputs.
-/

set_option linter.unusedSectionVars false
set_option linter.unusedSimpArgs false

namespace Torchdyn

open Spec Set
open scoped Topology

variable {ι κ A A' : Type} [Fintype ι] [Fintype κ]

open Classical in
theorem norm_flatten_le (z : AdjS (ι → ℝ) (κ → ℝ)) : ‖flatten z‖ ≤ ‖z‖ := by
  have h1 : ‖z.1‖ ≤ ‖z‖ := norm_fst_le z
  have h2 : ‖z.2‖ ≤ ‖z‖ := norm_snd_le z
  have h3 : ‖z.2.1‖ ≤ ‖z‖ := (norm_fst_le z.2).trans h2
  have h4 : ‖z.2.2‖ ≤ ‖z‖ := (norm_snd_le z.2).trans h2
  have h5 : ‖z.2.2.1‖ ≤ ‖z‖ := (norm_fst_le z.2.2).trans h4
  have h6 : ‖z.2.2.2‖ ≤ ‖z‖ := (norm_snd_le z.2.2).trans h4
  rw [flatten_apply]
  refine (pi_norm_le_iff_of_nonneg (norm_nonneg _)).2 fun idx => ?_
  rcases idx with i | i | i | i
  · exact (norm_le_pi_norm z.1 i).trans h1
  · refine (z.2.1.le_opNorm _).trans ?_
    rw [Pi.norm_single, norm_one, mul_one]
    exact h3
  · refine (z.2.2.1.le_opNorm _).trans ?_
    rw [Pi.norm_single, norm_one, mul_one]
    exact h5
  · exact h6

open Classical in
/-- Numerical and exact backward loops side by side; the numerical one works on flat vectors. -/
theorem adjointLoop_flat {f : (κ → ℝ) → ℝ → (ι → ℝ) → (ι → ℝ)}
    (hf : ContDiff ℝ 1 fun q : (κ → ℝ) × ℝ × (ι → ℝ) => f q.1 q.2.1 q.2.2) {θ : κ → ℝ}
    {y : ℝ → ι → ℝ} {t0 T B L C δ h ε Q R : ℝ} (hy : SolvesOn (f θ) y t0 T)
    (hyR : ∀ t ∈ Icc t0 T, ‖y t‖ ≤ R) (hB : 0 < B)
    (hgrow : ∀ (z : ℝ → AdjS (ι → ℝ) (κ → ℝ)) (a b : ℝ), t0 ≤ a → b ≤ T →
      SolvesOn (adjointDynamics (smoothAdjoint f θ none)) z a b → (∀ t ∈ Icc a b, (z t).1 = y t) →
      ∀ t ∈ Icc a b, ‖(z t).2‖ + 1 ≤ Real.exp (B * (b - t)) * (‖(z b).2‖ + 1))
    (hC : 0 ≤ C) (hL : 0 ≤ L) (hε : 0 ≤ ε) (hh0 : 0 ≤ h) (hhδ : h ≤ δ)
    {solver : Solver (Except PyErr) ℝ (AdjIdx ι κ → ℝ) A} {args : A}
    (hint : BackInterval solver args (flatAdjoint (coordAdjoint f θ)) R t0 T C L δ)
    (hR : Real.exp (B * (T - t0)) * Q ≤ R) (hsmall : Real.exp (L * (T - t0)) * (ε * Q + C * h ^ 5 * (T - t0)) ≤ 1 / 2)
    {atol rtol : ℝ} (hat : 0 < atol) (hrt : 0 ≤ rtol)
    {solve} (hsolve : ExactAlong solve (smoothAdjoint f θ none) y t0 T) {ts : List ℝ} (hinc : ts.Pairwise (· < ·))
    (hts : ∀ t ∈ ts, t0 ≤ t ∧ t ≤ T) (hgap : GapsAtMost h ts) {gt : List ℝ}
    (hgt : ∀ j < ts.length, gt[j]? = some 0) {gx : List (ι → ℝ)} {gx' : List ((ι → ℝ) →L[ℝ] ℝ)} {w : List ℝ} (hw : ∀ ω ∈ w, 0 ≤ ω)
    (hgx : ∀ j < ts.length, ∃ (a a' : (ι → ℝ) →L[ℝ] ℝ) (ω : ℝ), gx[j]? = some (fun i => a (Pi.single i 1)) ∧ gx'[j]? = some a' ∧
      w[j]? = some ω ∧ ‖a'‖ ≤ ω ∧ ‖a - a'‖ ≤ ω * ε) :
    ∀ (i : ℕ) (S : AdjState (ι → ℝ) (ι → ℝ) (κ → ℝ) ℝ) (Z : AdjS (ι → ℝ) (κ → ℝ)) (σ d d' τ : ℝ), ts[i]? = some τ → Z.1 = y τ →
      ‖Z.2‖ + 1 ≤ Real.exp (B * (T - τ)) * σ →
      ‖packState S - flatten Z‖ ≤ Real.exp (L * (T - τ)) * (ε * σ + C * h ^ 5 * (T - τ)) →
      σ + (w.take i).sum ≤ Q →
      ∃ fuel0 S' e Z' e', (∀ fuel, fuel0 ≤ fuel →
          adjointLoop (adjointOdeint fuel solver atol rtol args) (coordAdjoint f θ) ts gt gx i S d = .ok (S', e)) ∧
        adjointLoop solve (smoothAdjoint f θ none) ts gt gx' i Z d' = .ok (Z', e') ∧
        ‖packState S' - flatten Z'‖ ≤ Real.exp (L * (T - t0)) * (ε * Q + C * h ^ 5 * (T - t0)) := by
  have hd : Differentiable ℝ fun q : (κ → ℝ) × ℝ × (ι → ℝ) => f q.1 q.2.1 q.2.2 := hf.differentiable (by simp)
  have hmono : ∀ {τ σ : ℝ}, t0 ≤ τ → τ ≤ T → 0 ≤ σ → σ ≤ Q → Real.exp (L * (T - τ)) * (ε * σ + C * h ^ 5 * (T - τ)) ≤
      Real.exp (L * (T - t0)) * (ε * Q + C * h ^ 5 * (T - t0)) := by
    intro τ σ h0 h1 hσ0 hσ
    have hp := pow_nonneg hh0 5
    have hCp : 0 ≤ C * h ^ 5 := mul_nonneg hC hp
    refine mul_le_mul (Real.exp_le_exp.2 (mul_le_mul_of_nonneg_left (by linarith) hL)) (add_le_add
      (mul_le_mul_of_nonneg_left hσ hε) (mul_le_mul_of_nonneg_left (by linarith) hCp)) ?_ (Real.exp_pos _).le
    exact add_nonneg (mul_nonneg hε hσ0) (mul_nonneg hCp (by linarith))
  intro i
  induction i with
  | zero =>
    intro S Z σ d d' τ hτ _ hZ hS hσ
    have hτm := hts τ (List.mem_of_getElem? hτ)
    have hσ0 : 0 ≤ σ := by
      have h1 : 0 < Real.exp (B * (T - τ)) * σ := lt_of_lt_of_le (by positivity) hZ
      exact (pos_of_mul_pos_right h1 (Real.exp_pos _).le).le
    exact ⟨0, S, d, Z, d', fun _ _ => rfl, rfl, hS.trans (hmono hτm.1 hτm.2 hσ0 (by simpa using hσ))⟩
  | succ i ih =>
    intro S Z σ d d' τ hτ hZy hZ hS hσ
    obtain ⟨hi, rfl⟩ := List.getElem?_eq_some_iff.1 hτ
    have hi' : i < ts.length := by omega
    have hlt : ts[i] < ts[i + 1] := List.pairwise_iff_getElem.1 hinc i (i + 1) hi' hi (by omega)
    have hm1 := hts _ (List.getElem_mem hi)
    have hm0 := hts _ (List.getElem_mem hi')
    have hg := hgap i _ _ (List.getElem?_eq_getElem hi') (List.getElem?_eq_getElem hi)
    obtain ⟨a, a', ω, hga, hga', hwω, hω1, hω2⟩ := hgx i hi'
    generalize htLo : ts[i] = tLo at *
    generalize htHi : ts[i + 1] = tHi at *
    obtain ⟨z, tr, hz0, hz, hex⟩ := hsolve Z tHi tLo hm0.1 hlt hm1.2 hZy
    have hω0 : 0 ≤ ω := hw ω (List.mem_of_getElem? hwω)
    have htake : (w.take (i + 1)).sum = (w.take i).sum + ω := by
      rw [List.take_add_one, hwω]
      simp
    rw [htake] at hσ
    have htk := take_sum_nonneg hw i
    have hσQ : σ ≤ Q := by linarith
    have hσ0 : 0 ≤ σ := by
      have h1 : 0 < Real.exp (B * (T - tHi)) * σ := lt_of_lt_of_le (by positivity) hZ
      exact (pos_of_mul_pos_right h1 (Real.exp_pos _).le).le
    -- the exact solution of the adjoint equation follows `y`
    have hz1 : SolvesOn (f θ) (fun s => (z s).1) tLo tHi := by
      intro s hs
      have h1 := (hz s hs).fst
      rwa [adjointDynamics_smooth] at h1
    have hzy : ∀ t ∈ Icc tLo tHi, (z t).1 = y t := by
      refine backward_unique (g := f θ) ?_ ?_ hz1 (hy.mono hm0.1 hm1.2) (by simp only [hz0]; exact hZy)
      · simp only [partial_x hd]
        have h1 : Continuous fun p : ℝ × (ι → ℝ) => fderiv ℝ (fun q : (κ → ℝ) × ℝ × (ι → ℝ) => f q.1 q.2.1 q.2.2) (θ, p.1, p.2) :=
          (hf.continuous_fderiv (by simp)).comp (by fun_prop : Continuous fun p : ℝ × (ι → ℝ) => ((θ, p.1, p.2) : (κ → ℝ) × ℝ × (ι → ℝ)))
        exact h1.clm_comp continuous_const
      · intro t
        exact hd.comp (by fun_prop : Differentiable ℝ fun x : ι → ℝ => ((θ, t, x) : (κ → ℝ) × ℝ × (ι → ℝ)))
    have hzg : ∀ t ∈ Icc tLo tHi, ‖(z t).2‖ + 1 ≤ Real.exp (B * (T - t)) * σ := by
      intro t ht
      refine (hgrow z tLo tHi hm0.1 hm1.2 hz hzy t ht).trans ?_
      rw [hz0]
      calc Real.exp (B * (tHi - t)) * (‖Z.2‖ + 1) ≤ Real.exp (B * (tHi - t)) * (Real.exp (B * (T - tHi)) * σ) :=
            mul_le_mul_of_nonneg_left hZ (Real.exp_pos _).le
        _ = Real.exp (B * (T - t)) * σ := by
            rw [← mul_assoc, ← Real.exp_add]
            congr 2
            ring
    have hzR : ∀ t ∈ Icc tLo tHi, ‖z t‖ ≤ R := by
      intro t ht
      rw [Prod.norm_def, hzy t ht]
      refine max_le (hyR t ⟨hm0.1.trans ht.1, ht.2.trans hm1.2⟩) ?_
      have h1 := hzg t ht
      have h2 : Real.exp (B * (T - t)) * σ ≤ Real.exp (B * (T - t0)) * Q :=
        mul_le_mul (Real.exp_le_exp.2 (mul_le_mul_of_nonneg_left (by linarith [ht.1, hm0.1]) hB.le)) hσQ hσ0
          (Real.exp_pos _).le
      linarith
    have hzRf : ∀ t ∈ Icc tLo tHi, ‖flatten (z t)‖ ≤ R := fun t ht => (norm_flatten_le _).trans (hzR t ht)
    have hg0 : 0 ≤ tHi - tLo := by linarith
    have hCp : 0 ≤ C * h ^ 5 := mul_nonneg hC (pow_nonneg hh0 5)
    have hEm : Real.exp (L * (T - tLo)) = Real.exp (L * (tHi - tLo)) * Real.exp (L * (T - tHi)) := by
      rw [← Real.exp_add]
      congr 1
      ring
    have hpw : C * (tHi - tLo) ^ 6 ≤ C * h ^ 5 * (tHi - tLo) := by
      rw [pow_succ, ← mul_assoc]
      exact mul_le_mul_of_nonneg_right (mul_le_mul_of_nonneg_left (pow_le_pow_left₀ hg0 hg 5) hC) hg0
    have hbnd : (‖packState S - flatten (z tHi)‖ + C * (tHi - tLo) ^ 6) * Real.exp (L * (tHi - tLo)) ≤
        Real.exp (L * (T - tLo)) * (ε * σ + C * h ^ 5 * (T - tLo)) := by
      rw [hz0]
      have h1 : ‖packState S - flatten Z‖ * Real.exp (L * (tHi - tLo)) ≤
          Real.exp (L * (T - tLo)) * (ε * σ + C * h ^ 5 * (T - tHi)) := by
        rw [hEm, mul_comm, mul_assoc]
        exact mul_le_mul_of_nonneg_left hS (Real.exp_pos _).le
      have h2 : C * (tHi - tLo) ^ 6 * Real.exp (L * (tHi - tLo)) ≤ Real.exp (L * (T - tLo)) * (C * h ^ 5 * (tHi - tLo)) := by
        rw [mul_comm (Real.exp _)]
        refine mul_le_mul hpw (Real.exp_le_exp.2 (mul_le_mul_of_nonneg_left (by linarith) hL)) (Real.exp_pos _).le
          (mul_nonneg hCp hg0)
      have e4 : Real.exp (L * (T - tLo)) * (ε * σ + C * h ^ 5 * (T - tLo)) =
          Real.exp (L * (T - tLo)) * (ε * σ + C * h ^ 5 * (T - tHi)) +
            Real.exp (L * (T - tLo)) * (C * h ^ 5 * (tHi - tLo)) := by ring
      rw [add_mul, e4]
      exact add_le_add h1 h2
    obtain ⟨f1, v, hv, hrun⟩ := hint (fun t => flatten (z t)) tLo tHi (packState S) atol rtol [] (seminormEntries ι κ) hm0.1 hlt
      hm1.2 (hg.trans hhδ) (solves_flatten hd hz) hzRf (hbnd.trans ((hmono hm0.1 hm0.2 hσ0 hσQ).trans hsmall)) hat hrt
    set S1 := unpackState v with hS1
    have hpk : packState S1 = v := pack_unpackState v
    have hJ : ‖packState (S1.1, S1.2.1 + (fun i => a (Pi.single i 1)), S1.2.2.1, S1.2.2.2 - 0) -
        flatten ((z tLo).1, (z tLo).2.1 + a', (z tLo).2.2.1, (z tLo).2.2.2 - 0)‖ ≤ ‖v - flatten (z tLo)‖ + ω * ε := by
      have e : packState (S1.1, S1.2.1 + (fun i => a (Pi.single i 1)), S1.2.2.1, S1.2.2.2 - 0) -
        flatten ((z tLo).1, (z tLo).2.1 + a', (z tLo).2.2.1, (z tLo).2.2.2 - 0) =
          (v - flatten (z tLo)) + flatten (0, a - a', 0, 0) := by
        rw [← hpk, flatten_apply, flatten_apply, flatten_apply]
        funext idx
        rcases idx with i | i | i | i <;>
          simp only [packState, Pi.sub_apply, Pi.add_apply, add_apply, sub_apply, zero_apply, Pi.zero_apply, sub_zero, add_zero]
        ring
      rw [e]
      refine (norm_add_le _ _).trans (add_le_add le_rfl ((norm_flatten_le _).trans ?_))
      rw [Prod.norm_def, Prod.norm_def, Prod.norm_def]
      simp only [norm_zero, max_self]
      exact max_le (mul_nonneg hω0 hε) (max_le hω2 (mul_nonneg hω0 hε))
    obtain ⟨f2, S', e, Z', e', hl1, hl2, hfin⟩ := ih (S1.1, S1.2.1 + (fun i => a (Pi.single i 1)), S1.2.2.1, S1.2.2.2 - 0)
      ((z tLo).1, (z tLo).2.1 + a', (z tLo).2.2.1, (z tLo).2.2.2 - 0) (σ + ω)
      ((coordAdjoint f θ).pair S1.2.1 ((coordAdjoint f θ).vf tHi S1.1))
      ((smoothAdjoint f θ none).pair (z tLo).2.1 ((smoothAdjoint f θ none).vf tHi (z tLo).1)) tLo
      (by rw [List.getElem?_eq_getElem hi', htLo]) (hzy tLo ⟨le_rfl, hlt.le⟩) (by
        have h1 := hzg tLo ⟨le_rfl, hlt.le⟩
        have h2 : ‖(((z tLo).2.1 + a', (z tLo).2.2.1, (z tLo).2.2.2 - 0) : ((ι → ℝ) →L[ℝ] ℝ) × ((κ → ℝ) →L[ℝ] ℝ) × ℝ)‖ ≤
            ‖(z tLo).2‖ + ω := by
          have e : (((z tLo).2.1 + a', (z tLo).2.2.1, (z tLo).2.2.2 - 0) : ((ι → ℝ) →L[ℝ] ℝ) × ((κ → ℝ) →L[ℝ] ℝ) × ℝ) =
              (z tLo).2 + (a', 0, 0) := by
            ext1
            · rfl
            · ext1 <;> simp
          rw [e]
          refine (norm_add_le _ _).trans (add_le_add le_rfl ?_)
          rw [Prod.norm_def, Prod.norm_def]
          simp only [norm_zero, max_self]
          exact max_le hω1 hω0
        have h3 : ω ≤ Real.exp (B * (T - tLo)) * ω :=
          le_mul_of_one_le_left hω0 (Real.one_le_exp (mul_nonneg hB.le (by linarith)))
        rw [mul_add]
        linarith) (by
        refine hJ.trans ((add_le_add (hv.trans hbnd) le_rfl).trans ?_)
        have hE0 : 1 ≤ Real.exp (L * (T - tLo)) := Real.one_le_exp (mul_nonneg hL (by linarith))
        have h3 : ω * ε ≤ Real.exp (L * (T - tLo)) * (ω * ε) := le_mul_of_one_le_left (mul_nonneg hω0 hε) hE0
        have e4 : Real.exp (L * (T - tLo)) * (ε * (σ + ω) + C * h ^ 5 * (T - tLo)) =
            Real.exp (L * (T - tLo)) * (ε * σ + C * h ^ 5 * (T - tLo)) + Real.exp (L * (T - tLo)) * (ω * ε) := by ring
        rw [e4]
        linarith) (by linarith)
    refine ⟨max f1 f2, S', e, Z', e', fun fuel hfuel => ?_, ?_, hfin⟩
    · have r1 := hrun fuel ((le_max_left _ _).trans hfuel)
      have r3 : adjointOdeint fuel solver atol rtol args (fun t A => pure (adjointDynamics (coordAdjoint f θ) t A)) S [tHi, tLo] =
          .ok ([-tHi, -tLo], [S, S1]) := by
        rw [adjointOdeint, adjointOdeintOn_eq, r1]
        rfl
      rw [adjointLoop]
      simp only [bind, Except.bind, pure, Except.pure, getItem, List.getElem?_eq_getElem hi',
        List.getElem?_eq_getElem hi, hgt i hi', hga, htLo, htHi]
      simp only [pure, Except.pure] at r3
      rw [r3]
      simp only [getLastItem, List.getLast?_cons_cons, List.getLast?_singleton, pure, Except.pure]
      exact hl1 fuel ((le_max_right _ _).trans hfuel)
    · rw [adjointLoop]
      simp only [bind, Except.bind, pure, Except.pure, getItem, List.getElem?_eq_getElem hi',
        List.getElem?_eq_getElem hi, hgt i hi', hga', htLo, htHi]
      simp only [pure, Except.pure] at hex
      rw [hex]
      simp only [getLastItem, List.getLast?_cons_cons, List.getLast?_singleton, pure, Except.pure]
      exact hl2

set_option maxHeartbeats 1000000 in
-- many side conditions in one proof
open Classical in
/-- **C148.** `dopri5` in both passes of the adjoint method, losses `∑ᵢ wᵢ ℓ(tᵢ, x(tᵢ))` over all outputs: for every bound `M` there
are `C` and `δ` such that on every increasing grid from `t0` to `T` with gaps at most `h ≤ δ`, for all weights with
`∑ᵢ |wᵢ| ≤ M` and all tolerances with `atol > 0`, `rtol ≥ 0`, both passes return, and the gradients with respect to the parameters
and to the initial state are within `C h⁵` of the derivative `D` of the loss along the true solutions `Y`. -/
theorem C148_dopri5_checkpoints {f : (κ → ℝ) → ℝ → (ι → ℝ) → (ι → ℝ)}
    (hf6 : ContDiff ℝ 6 fun q : (κ → ℝ) × ℝ × (ι → ℝ) => f q.1 q.2.1 q.2.2) {θ : κ → ℝ} {x0 : ι → ℝ}
    {ℓ : ℝ → (ι → ℝ) → ℝ} (hℓd : ∀ t, Differentiable ℝ (ℓ t))
    (hℓ : ContDiff ℝ 1 fun p : ℝ × (ι → ℝ) => fderiv ℝ (ℓ p.1) p.2) {t0 T : ℝ} (htT : t0 < T)
    (Y : (κ → ℝ) × (ι → ℝ) → ℝ → (ι → ℝ)) (hY : ∀ᶠ q in 𝓝 (θ, x0), Y q t0 = q.2 ∧ SolvesOn (f q.1) (Y q) t0 T)
    (args : A) (argsAdj : A') (M : ℝ) :
    ∃ C δ, 0 < δ ∧ ∀ (t1 : ℝ) (rest : List ℝ) (h : ℝ) (w : List ℝ) (atol rtol atolAdj rtolAdj : ℝ) (saveAt : List ℝ)
      (sel : Finset ι), h ≤ δ → Increasing (t0 :: t1 :: rest) → (t0 :: t1 :: rest).getLast? = some T →
      GapsAtMost h (t0 :: t1 :: rest) → w.length = (t0 :: t1 :: rest).length → (w.map fun c => |c|).sum ≤ M →
      0 < atol → 0 ≤ rtol → 0 < atolAdj → 0 ≤ rtolAdj →
      ∃ D : (κ → ℝ) × (ι → ℝ) →L[ℝ] ℝ,
        HasFDerivAt (fun q => (List.zipWith (fun c s => c * ℓ s (Y q s)) w (t0 :: t1 :: rest)).sum) D (θ, x0) ∧
        ∃ fuel0 sol μ lam d d', sol.length = rest.length + 2 ∧
          (∀ fuel, fuel0 ≤ fuel →
            odeint fuel (pureField (f θ)) x0 (t0 :: t1 :: rest) (dopri5Solver (Except PyErr) ℝ (ι → ℝ) A) atol rtol false false
              saveAt args sel = .ok (some (t0 :: t1 :: rest, sol)) ∧
            adjointBackward (adjointOdeint fuel (dopri5Solver (Except PyErr) ℝ (AdjIdx ι κ → ℝ) A') atolAdj rtolAdj argsAdj)
              (coordAdjoint f θ) (t0 :: t1 :: rest) sol (List.replicate (rest.length + 2) 0)
              (List.zipWith (fun c p => fun i => c * fderiv ℝ (ℓ p.1) p.2 (Pi.single i 1)) w ((t0 :: t1 :: rest).zip sol)) =
                .ok (μ, lam, d, d')) ∧
          (∀ k, |μ k - D (Pi.single k 1, 0)| ≤ C * h ^ 5) ∧ ∀ i, |lam i - D (0, Pi.single i 1)| ≤ C * h ^ 5 := by
  have hf : ContDiff ℝ 1 fun q : (κ → ℝ) × ℝ × (ι → ℝ) => f q.1 q.2.1 q.2.2 := hf6.of_le (by norm_num)
  have hf5 : ContDiff ℝ 5 fun q : (κ → ℝ) × ℝ × (ι → ℝ) => f q.1 q.2.1 q.2.2 := hf6.of_le (by norm_num)
  have hdg : Continuous fun p : ℝ × (ι → ℝ) => lossCot (none : Option (ℝ → (ι → ℝ) → ((ι → ℝ) →L[ℝ] ℝ))) p.1 p.2 := continuous_const
  have hd : Differentiable ℝ fun q : (κ → ℝ) × ℝ × (ι → ℝ) => f q.1 q.2.1 q.2.2 := hf.differentiable (by simp)
  obtain ⟨hy0, hy⟩ := hY.self_of_nhds
  have hfc : Continuous fun p : ℝ × (κ → ℝ) × (ι → ℝ) => fderiv ℝ (fun q : (κ → ℝ) × (ι → ℝ) => f q.1 p.1 q.2) p.2 := by
    have e : (fun p : ℝ × (κ → ℝ) × (ι → ℝ) => fderiv ℝ (fun q : (κ → ℝ) × (ι → ℝ) => f q.1 p.1 q.2) p.2) = fun p =>
        (fderiv ℝ (fun q : (κ → ℝ) × ℝ × (ι → ℝ) => f q.1 q.2.1 q.2.2) (p.2.1, p.1, p.2.2)).comp
          ((ContinuousLinearMap.fst ℝ (κ → ℝ) (ι → ℝ)).prod ((0 : (κ → ℝ) × (ι → ℝ) →L[ℝ] ℝ).prod (ContinuousLinearMap.snd ℝ (κ → ℝ) (ι → ℝ)))) := by
      funext p
      exact (partial_q hd p.1 p.2).fderiv
    rw [e]
    have h1 : Continuous fun p : ℝ × (κ → ℝ) × (ι → ℝ) => fderiv ℝ (fun q : (κ → ℝ) × ℝ × (ι → ℝ) => f q.1 q.2.1 q.2.2) (p.2.1, p.1, p.2.2) :=
      (hf.continuous_fderiv (by simp)).comp (by fun_prop : Continuous fun p : ℝ × (κ → ℝ) × (ι → ℝ) => ((p.2.1, p.1, p.2.2) : (κ → ℝ) × ℝ × (ι → ℝ)))
    exact h1.clm_comp continuous_const
  obtain ⟨solve, hsolve⟩ := exists_exact_solve hf θ hdg hy
  have hexact := fun rest' h1 h2 ls h3 h4 gt h5 => C83_frechet hfc (fun t q => (partial_q hd t q).differentiableAt) hdg
    (G := fun _ _ => 0) continuous_const (fun t x => hasFDerivAt_const (0 : ℝ) x) Y hY hsolve rest' h1 h2 ls h3 h4 gt h5
  generalize hyd : Y (θ, x0) = y at *
  have hyc : ContinuousOn y (Icc t0 T) := fun t ht => (hy t ht).continuousWithinAt
  obtain ⟨B, hB0, hgrow⟩ := adjoint_growth (P := κ → ℝ) hf θ hdg hyc
  obtain ⟨Ry, hRy⟩ := isCompact_Icc.exists_bound_of_continuousOn hyc
  have hRy0 : 0 ≤ Ry := (norm_nonneg _).trans (hRy t0 ⟨le_rfl, htT.le⟩)
  obtain ⟨gl, -, ⟨Kl, hKl0, hKl⟩, ⟨Ml, hMl⟩, hgl⟩ := exists_cutoff (n := 1) one_ne_zero (by exact_mod_cast hℓ)
    (R := Ry + |t0| + |T| + 1) (by positivity)
  have hfT : ContDiff ℝ 1 fun x => f θ T x := hf.comp (by fun_prop : ContDiff ℝ 1 fun x : ι → ℝ => ((θ, T, x) : (κ → ℝ) × ℝ × (ι → ℝ)))
  obtain ⟨gf, -, ⟨Kf, hKf0, hKf⟩, ⟨Mf, hMf⟩, hgf⟩ := exists_cutoff (n := 1) one_ne_zero (by exact_mod_cast hfT)
    (R := Ry + 1) (by positivity)
  have hMl0 : 0 ≤ Ml := (norm_nonneg _).trans (hMl 0)
  have hMf0 : 0 ≤ Mf := (norm_nonneg _).trans (hMf 0)
  obtain ⟨C1, δ1, hδ1, H1⟩ := C86_dopri5_total (f θ)
    (hf5.comp (by fun_prop : ContDiff ℝ 5 fun p : ℝ × (ι → ℝ) => ((θ, p.1, p.2) : (κ → ℝ) × ℝ × (ι → ℝ)))) y t0 T hy args
  generalize hC1' : max C1 0 = C1'
  have hC10 : 0 ≤ C1' := hC1' ▸ le_max_right _ _
  have hC11 : C1 ≤ C1' := hC1' ▸ le_max_left _ _
  generalize hM' : max M 0 = M'
  have hM0 : 0 ≤ M' := hM' ▸ le_max_right _ _
  have hMM : M ≤ M' := hM' ▸ le_max_left _ _
  generalize hκ : (1 + Kl) * (1 + Kf) * C1' = κa
  have hκ0 : 0 ≤ κa := by rw [← hκ]; positivity
  have hκ1 : C1' ≤ κa := by
    rw [← hκ]
    exact le_mul_of_one_le_left hC10 (one_le_mul_of_one_le_of_one_le (by linarith) (by linarith))
  have hκ2 : Kl * C1' ≤ κa := by
    rw [← hκ]
    refine mul_le_mul_of_nonneg_right ?_ hC10
    have := mul_nonneg hKl0 hKf0
    linarith
  have hκ3 : Kf * C1' ≤ κa := by
    rw [← hκ]
    refine mul_le_mul_of_nonneg_right ?_ hC10
    have := mul_nonneg hKl0 hKf0
    linarith
  generalize hQ : (1 + Mf) * (1 + (1 + Ml) * M') = Q
  have hQ0 : 0 ≤ Q := by rw [← hQ]; positivity
  obtain ⟨C2, L, δ2, hC2, hL, hδ2, H2⟩ := dopri5_backInterval (flatAdjoint (coordAdjoint f θ))
    (by exact_mod_cast contDiff_flatAdjoint (n := 5) (by exact_mod_cast hf6) θ) (max Ry (Real.exp (B * (T - t0)) * Q)) t0 T argsAdj
  generalize hE : Real.exp (L * (T - t0)) * (κa * Q + C2 * (T - t0)) = E
  have hE0 : 0 ≤ E := by
    rw [← hE]
    have : 0 ≤ T - t0 := by linarith
    positivity
  refine ⟨E, min (min δ1 δ2) (min 1 (min (1 / (1 + C1')) (1 / (2 * (1 + E))))),
    lt_min (lt_min hδ1 hδ2) (lt_min one_pos (lt_min (by positivity) (by positivity))), ?_⟩
  intro t1 rest h w atol rtol atolAdj rtolAdj saveAt sel hh hmono hlast hgap hwlen hwM hat hrt hat' hrt'
  have hh1 : h ≤ δ1 := hh.trans ((min_le_left _ _).trans (min_le_left _ _))
  have hh2 : h ≤ δ2 := hh.trans ((min_le_left _ _).trans (min_le_right _ _))
  have hh3 : h ≤ 1 := hh.trans ((min_le_right _ _).trans (min_le_left _ _))
  have hh4 : h ≤ 1 / (1 + C1') := hh.trans ((min_le_right _ _).trans ((min_le_right _ _).trans (min_le_left _ _)))
  have hh5 : h ≤ 1 / (2 * (1 + E)) := hh.trans ((min_le_right _ _).trans ((min_le_right _ _).trans (min_le_right _ _)))
  rw [le_div_iff₀ (by positivity)] at hh4 hh5
  have h01 : t0 < t1 := (List.pairwise_cons.1 hmono).1 t1 (by simp)
  have hh0 : 0 ≤ h := (sub_nonneg.2 h01.le).trans (hgap 0 t0 t1 rfl rfl)
  have hhp : h ^ 5 ≤ h := by
    calc h ^ 5 ≤ h ^ 1 := pow_le_pow_of_le_one hh0 hh3 (by omega)
      _ = h := pow_one h
  have hhp0 : 0 ≤ h ^ 5 := by positivity
  -- the exact backward pass
  obtain ⟨μ', lam', d1, d1', hrun', hD⟩ := hexact (t1 :: rest) hmono hlast
    (List.zipWith (fun c s => fun x => c * ℓ s x) w (t0 :: t1 :: rest)) (by
      intro l hl
      rw [List.mem_iff_getElem?] at hl
      obtain ⟨j, hj⟩ := hl
      rw [List.getElem?_zipWith] at hj
      split at hj
      · cases hj
        exact (hℓd _).const_mul _
      · simp at hj) (by simp [hwlen]) (List.replicate (rest.length + 2) 0) (by simp)
  rw [zipWith_zipWith_left] at hrun'
  simp only [zipWith_zipWith_left] at hD
  generalize hts : t0 :: t1 :: rest = ts at *
  have hlen : ts.length = rest.length + 2 := by rw [← hts]; simp
  have hlastT : ts[rest.length + 1]? = some T := by
    rw [List.getLast?_eq_getElem?, hlen] at hlast
    exact hlast
  have hle : ∀ t ∈ ts, t0 ≤ t ∧ t ≤ T := by
    intro t ht
    obtain ⟨j, hj, rfl⟩ := List.getElem_of_mem ht
    constructor
    · have hm0 : (t0 :: t1 :: rest).Pairwise (· < ·) := by rw [hts]; exact hmono
      have ht' : ts[j] ∈ t0 :: t1 :: rest := by rw [hts]; exact List.getElem_mem hj
      rcases List.mem_cons.1 ht' with he | hm
      · exact he.ge
      · exact ((List.pairwise_cons.1 hm0).1 _ hm).le
    · obtain ⟨hl', hTe⟩ := List.getElem?_eq_some_iff.1 hlastT
      rw [← hTe]
      rcases Nat.lt_or_ge j (rest.length + 1) with hlt | hge
      · exact (List.pairwise_iff_getElem.1 hmono j (rest.length + 1) hj hl' hlt).le
      · have : j = rest.length + 1 := by omega
        subst this
        exact le_rfl
  -- forward pass
  obtain ⟨f1, sol, hfwd, hsl, hbd⟩ := H1 t1 rest h atol rtol saveAt sel hh1 (by rw [hts]; exact hmono)
    (by rw [hts]; exact fun t ht => (hle t ht).2) (by rw [hts]; exact hgap) hat hrt
  rw [hts] at hsl hbd
  have hC1h : C1' * h ^ 5 ≤ 1 := by
    have : C1' * h ^ 5 ≤ C1' * h := mul_le_mul_of_nonneg_left hhp hC10
    linarith
  have hxb : ∀ (k : ℕ) (t : ℝ) (x : ι → ℝ), ts[k]? = some t → sol[k]? = some x → ‖x - y t‖ ≤ C1' * h ^ 5 := fun k t x hk hx =>
    (hbd k t x hk hx).trans (mul_le_mul_of_nonneg_right hC11 hhp0)
  have hyb : ∀ t ∈ ts, ‖y t‖ ≤ Ry := fun t ht => hRy t (hle t ht)
  have hxR : ∀ (k : ℕ) (t : ℝ) (x : ι → ℝ), ts[k]? = some t → sol[k]? = some x → ‖x‖ ≤ Ry + 1 := by
    intro k t x hk hx
    have h1 := hxb k t x hk hx
    have h2 := hyb t (List.mem_of_getElem? hk)
    have h3 : ‖x‖ ≤ ‖x - y t‖ + ‖y t‖ := by
      have := norm_add_le (x - y t) (y t)
      simpa using this
    linarith
  have hpair : ∀ t x, t ∈ ts → ‖x‖ ≤ Ry + 1 → ‖((t, x) : ℝ × (ι → ℝ))‖ ≤ Ry + |t0| + |T| + 1 := by
    intro t x ht hx
    have h1 := hle t ht
    rw [Prod.norm_def]
    refine max_le ?_ ?_
    · simp only [Real.norm_eq_abs]
      rw [abs_le]
      have := neg_abs_le t0
      have := le_abs_self T
      constructor <;> [(have := abs_nonneg T); (have := abs_nonneg t0)] <;> linarith
    · have := abs_nonneg t0
      have := abs_nonneg T
      simp only
      linarith
  -- the cotangents of the two passes
  generalize hgx : List.zipWith (fun c p => fun i => c * fderiv ℝ (ℓ p.1) p.2 (Pi.single i 1)) w (ts.zip sol) = gx
  generalize hgx' : List.zipWith (fun c s => fderiv ℝ (fun x => c * ℓ s x) (y s)) w ts = gx' at hrun'
  generalize hω : w.map (fun c => |c| * (1 + Ml)) = ω
  have hω0 : ∀ a ∈ ω, 0 ≤ a := by
    rw [← hω]
    intro a ha
    obtain ⟨c, -, rfl⟩ := List.mem_map.1 ha
    positivity
  have hωs : ω.sum ≤ (1 + Ml) * M' := by
    rw [← hω, List.sum_map_mul_right, mul_comm]
    exact mul_le_mul_of_nonneg_left (hwM.trans hMM) (by positivity)
  have hcot : ∀ j < ts.length, ∃ (a a' : (ι → ℝ) →L[ℝ] ℝ) (o : ℝ), gx[j]? = some (fun i => a (Pi.single i 1)) ∧ gx'[j]? = some a' ∧ ω[j]? = some o ∧ ‖a'‖ ≤ o ∧
      ‖a - a'‖ ≤ o * (κa * h ^ 5) := by
    intro j hj
    have hjw : j < w.length := by omega
    have hjs : j < sol.length := by omega
    refine ⟨w[j] • fderiv ℝ (ℓ ts[j]) sol[j], w[j] • fderiv ℝ (ℓ ts[j]) (y ts[j]), |w[j]| * (1 + Ml), ?_, ?_, ?_, ?_, ?_⟩
    · rw [← hgx, List.getElem?_zipWith, List.getElem?_eq_getElem hjw, List.getElem?_eq_getElem (by simp; omega)]
      simp
    · rw [← hgx', List.getElem?_zipWith, List.getElem?_eq_getElem hjw, List.getElem?_eq_getElem hj]
      simp only [Option.some.injEq]
      exact fderiv_const_mul (hℓd _ _) _
    · rw [← hω, List.getElem?_map, List.getElem?_eq_getElem hjw]
      rfl
    · rw [norm_smul, Real.norm_eq_abs]
      refine mul_le_mul_of_nonneg_left ?_ (abs_nonneg _)
      have h1 := hgl (ts[j], y ts[j]) (hpair _ _ (List.getElem_mem hj) (by linarith [hyb _ (List.getElem_mem hj)]))
      simp only at h1
      rw [h1]
      linarith [hMl (ts[j], y ts[j])]
    · have es : w[j] • fderiv ℝ (ℓ ts[j]) sol[j] - w[j] • fderiv ℝ (ℓ ts[j]) (y ts[j]) =
          w[j] • (fderiv ℝ (ℓ ts[j]) sol[j] - fderiv ℝ (ℓ ts[j]) (y ts[j])) := (smul_sub _ _ _).symm
      rw [es, norm_smul, Real.norm_eq_abs, mul_assoc]
      refine mul_le_mul_of_nonneg_left ?_ (abs_nonneg _)
      have ht' : ts[j]? = some ts[j] := List.getElem?_eq_getElem hj
      have hx' : sol[j]? = some sol[j] := List.getElem?_eq_getElem hjs
      have h1 := hgl (ts[j], y ts[j]) (hpair _ _ (List.getElem_mem hj) (by linarith [hyb _ (List.getElem_mem hj)]))
      have h2 := hgl (ts[j], sol[j]) (hpair _ _ (List.getElem_mem hj) (hxR j _ _ ht' hx'))
      simp only at h1 h2
      rw [h1, h2]
      have h3 : ‖((ts[j], sol[j]) : ℝ × (ι → ℝ)) - (ts[j], y ts[j])‖ = ‖sol[j] - y ts[j]‖ := by
        rw [Prod.mk_sub_mk, sub_self, Prod.norm_def]
        simp
      calc ‖gl (ts[j], sol[j]) - gl (ts[j], y ts[j])‖ ≤ Kl * ‖sol[j] - y ts[j]‖ := h3 ▸ hKl _ _
        _ ≤ Kl * (C1' * h ^ 5) := mul_le_mul_of_nonneg_left (hxb j _ _ ht' hx') hKl0
        _ = Kl * C1' * h ^ 5 := by ring
        _ ≤ κa * h ^ 5 := mul_le_mul_of_nonneg_right hκ2 hhp0
        _ ≤ (1 + Ml) * (κa * h ^ 5) := le_mul_of_one_le_left (by positivity) (by linarith)
  -- the start of the backward pass
  obtain ⟨a, a', o, hga, hga', hoo, ho1, ho2⟩ := hcot (rest.length + 1) (by omega)
  obtain ⟨xT, hxT⟩ : ∃ xT, sol[rest.length + 1]? = some xT := ⟨_, List.getElem?_eq_getElem (by omega)⟩
  have ho0 : 0 ≤ o := hω0 o (List.mem_of_getElem? hoo)
  have hxTb := hxb _ T xT hlastT hxT
  have hTm : T ∈ ts := List.mem_of_getElem? hlastT
  have hfx : f θ T xT = gf xT := hgf xT (hxR _ _ _ hlastT hxT)
  have hfy : f θ T (y T) = gf (y T) := hgf (y T) (by linarith [hyb T hTm])
  have hnx : ‖f θ T xT‖ ≤ Mf := hfx ▸ hMf _
  have hny : ‖f θ T (y T)‖ ≤ Mf := hfy ▸ hMf _
  have hnxy : ‖f θ T xT - f θ T (y T)‖ ≤ κa * h ^ 5 := by
    rw [hfx, hfy]
    calc _ ≤ Kf * ‖xT - y T‖ := hKf _ _
      _ ≤ Kf * (C1' * h ^ 5) := mul_le_mul_of_nonneg_left hxTb hKf0
      _ = Kf * C1' * h ^ 5 := by ring
      _ ≤ _ := mul_le_mul_of_nonneg_right hκ3 hhp0
  have hMo := mul_nonneg hMf0 ho0
  have hσe : (1 + Mf) * (1 + o) = 1 + o + Mf + Mf * o := by ring
  have hσ1 : 1 ≤ (1 + Mf) * (1 + o) := by linarith
  have hσ2 : o ≤ (1 + Mf) * (1 + o) := by linarith
  have hS0 : ‖((xT, a, 0, a (f θ T xT)) : AdjS (ι → ℝ) (κ → ℝ)) - (y T, a', 0, a' (f θ T (y T)))‖ ≤ κa * h ^ 5 * ((1 + Mf) * (1 + o)) := by
    have hkh : 0 ≤ κa * h ^ 5 := by positivity
    rw [Prod.mk_sub_mk, Prod.mk_sub_mk, Prod.mk_sub_mk, Prod.norm_def, Prod.norm_def, Prod.norm_def, sub_self]
    refine max_le ?_ (max_le ?_ (max_le ?_ ?_))
    · exact (hxTb.trans (mul_le_mul_of_nonneg_right hκ1 hhp0)).trans (le_mul_of_one_le_right hkh hσ1)
    · refine ho2.trans ?_
      rw [mul_comm]
      exact mul_le_mul_of_nonneg_left hσ2 hkh
    · simpa using mul_nonneg hkh (by linarith)
    · have e : a (f θ T xT) - a' (f θ T (y T)) = (a - a') (f θ T xT) + a' (f θ T xT - f θ T (y T)) := by
        rw [map_sub, sub_apply]
        ring
      simp only
      rw [e]
      refine (norm_add_le _ _).trans ?_
      have h1 : ‖(a - a') (f θ T xT)‖ ≤ o * (κa * h ^ 5) * Mf :=
        ((a - a').le_opNorm _).trans (mul_le_mul ho2 hnx (norm_nonneg _) (mul_nonneg ho0 hkh))
      have h2 : ‖a' (f θ T xT - f θ T (y T))‖ ≤ o * (κa * h ^ 5) :=
        (a'.le_opNorm _).trans (mul_le_mul ho1 hnxy (norm_nonneg _) ho0)
      have h3 : o * (κa * h ^ 5) * Mf + o * (κa * h ^ 5) = κa * h ^ 5 * ((1 + Mf) * o) := by ring
      have h4 : κa * h ^ 5 * ((1 + Mf) * o) ≤ κa * h ^ 5 * ((1 + Mf) * (1 + o)) :=
        mul_le_mul_of_nonneg_left (mul_le_mul_of_nonneg_left (by linarith) (by linarith)) hkh
      linarith
  have hZ0 : ‖((a', 0, a' (f θ T (y T))) : ((ι → ℝ) →L[ℝ] ℝ) × ((κ → ℝ) →L[ℝ] ℝ) × ℝ)‖ + 1 ≤ (1 + Mf) * (1 + o) := by
    have h1 : ‖a' (f θ T (y T))‖ ≤ o * Mf := (a'.le_opNorm _).trans (mul_le_mul ho1 hny (norm_nonneg _) ho0)
    have h2 : ‖((a', 0, a' (f θ T (y T))) : ((ι → ℝ) →L[ℝ] ℝ) × ((κ → ℝ) →L[ℝ] ℝ) × ℝ)‖ ≤ o + o * Mf := by
      rw [Prod.norm_def, Prod.norm_def]
      have := mul_nonneg ho0 hMf0
      refine max_le (by simp only; linarith) (max_le (by simp only [norm_zero]; linarith) (by simp only; linarith))
    linarith
  have htake : (ω.take (rest.length + 1)).sum + o = ω.sum := by
    have hωl : ω.length = rest.length + 1 + 1 := by rw [← hω, List.length_map, hwlen, hlen]
    have h1 : ω.take (rest.length + 1 + 1) = ω := by rw [← hωl]; exact List.take_length
    conv_rhs => rw [← h1, List.take_add_one, hoo]
    simp
  have hsmall : Real.exp (L * (T - t0)) * (κa * h ^ 5 * Q + C2 * h ^ 5 * (T - t0)) = E * h ^ 5 := by
    rw [← hE]
    ring
  set S : AdjState (ι → ℝ) (ι → ℝ) (κ → ℝ) ℝ := (xT, fun i => a (Pi.single i 1), 0,
    (coordAdjoint f θ).pair (fun i => a (Pi.single i 1)) ((coordAdjoint f θ).vf T xT)) with hS
  have hSf : packState S = flatten (xT, a, 0, a (f θ T xT)) := by
    rw [flatten_apply]
    congr 1
    refine Prod.ext rfl (Prod.ext rfl (Prod.ext rfl ?_))
    show ∑ j, a (Pi.single j 1) * f θ T xT j = a (f θ T xT)
    rw [← covec_apply, covec_coords]
  have hS0f : ‖packState S - flatten (y T, a', 0, a' (f θ T (y T)))‖ ≤ κa * h ^ 5 * ((1 + Mf) * (1 + o)) := by
    rw [hSf, ← map_sub]
    exact (norm_flatten_le _).trans hS0
  obtain ⟨f2, S', e, Z', e', hl1, hl2, hfin⟩ := adjointLoop_flat (C := C2) (L := L) (δ := δ2) (ε := κa * h ^ 5) hf hy
    (fun t ht => (hRy t ht).trans (le_max_left _ _)) hB0 hgrow hC2 hL (by positivity) hh0 hh2 H2 (le_max_right _ _) (by
      rw [hsmall]
      have : E * h ^ 5 ≤ E * h := mul_le_mul_of_nonneg_left hhp hE0
      linarith) hat' hrt' hsolve hmono hle hgap (gt := List.replicate (rest.length + 2) 0)
    (fun j hj => by rw [List.getElem?_replicate, if_pos (by omega)]) hω0 hcot (rest.length + 1)
    S (y T, a', 0, a' (f θ T (y T))) ((1 + Mf) * (1 + o)) S.2.2.2 (a' (f θ T (y T))) T hlastT rfl
    (by simpa using hZ0) (by simpa using hS0f) (by
      rw [← hQ]
      have h1 := take_sum_nonneg hω0 (rest.length + 1)
      have h2 : (1 + Mf) * (1 + o) + (ω.take (rest.length + 1)).sum ≤ (1 + Mf) * (1 + ω.sum) := by
        have h3 := mul_nonneg hMf0 h1
        have h4 : (1 + Mf) * (1 + ω.sum) = (1 + Mf) * (1 + o) + (ω.take (rest.length + 1)).sum +
            Mf * (ω.take (rest.length + 1)).sum := by
          rw [← htake]
          ring
        linarith
      exact h2.trans (mul_le_mul_of_nonneg_left (by linarith) (by linarith)))
  rw [hsmall] at hfin
  have hgl1 : gx.getLast? = some (fun i => a (Pi.single i 1)) := by
    rw [List.getLast?_eq_getElem?, ← hgx, List.length_zipWith, List.length_zip, hsl, hwlen, min_self, min_self, hlen, hgx]
    exact hga
  have hgl2 : gx'.getLast? = some a' := by
    rw [List.getLast?_eq_getElem?, ← hgx', List.length_zipWith, hwlen, min_self, hlen, hgx']
    exact hga'
  have hsl1 : sol.getLast? = some xT := by
    rw [List.getLast?_eq_getElem?, hsl, hlen]
    exact hxT
  have hsl2 : (ts.map y).getLast? = some (y T) := by rw [List.getLast?_map, hlast]; rfl
  have hμ : μ' = Z'.2.2.1 ∧ lam' = Z'.2.1 := by
    unfold adjointBackward at hrun'
    simp only [getLastItem, hsl2, hgl2, hlast, pure_bind, hlen, Nat.add_succ_sub_one] at hrun'
    change (adjointLoop solve (smoothAdjoint f θ none) ts _ _ (rest.length + 1)
      (y T, a', 0, a' (f θ T (y T))) (a' (f θ T (y T))) >>= _) = _ at hrun'
    rw [hl2] at hrun'
    have := Except.ok.inj hrun'
    simp only [Prod.mk.injEq] at this
    exact ⟨this.1.symm, this.2.1.symm⟩
  have hy0' : y t0 = x0 := hy0
  rw [hy0'] at hfwd
  have herr : ∀ idx, |packState S' idx - flatten Z' idx| ≤ E * h ^ 5 := fun idx =>
    (norm_le_pi_norm (packState S' - flatten Z') idx).trans hfin
  refine ⟨μ'.coprod lam', by simpa using hD, max f1 f2, sol, S'.2.2.1, S'.2.1, e, S.2.2.2, by omega, fun fuel hfuel => ⟨?_, ?_⟩,
    fun k => ?_, fun i => ?_⟩
  · rw [← hts]
    exact C21_fuel_irrelevant (dopri5_fsalSolver args) (f θ) x0 t0 t1 rest atol rtol false false saveAt sel f1 fuel
      ((le_max_left _ _).trans hfuel) _ hfwd
  · have hb := hl1 fuel ((le_max_right _ _).trans hfuel)
    rw [hgx]
    simp only [adjointBackward, getLastItem, hsl1, hgl1, hlast, bind, Except.bind, pure, Except.pure, hlen, Nat.add_succ_sub_one]
    exact congrArg (fun r => Except.bind r fun v => Except.ok (v.1.2.2.1, v.1.2.1, v.2, S.2.2.2)) hb
  · have := herr (.inr (.inr (.inl k)))
    rw [hμ.1, hμ.2]
    simpa [flatten_apply, packState] using this
  · have := herr (.inr (.inl i))
    rw [hμ.1, hμ.2]
    simpa [flatten_apply, packState] using this

/-- `x' = θ x` on `[0, 1]` with the loss `∑ᵢ wᵢ x(tᵢ)`, `∑ᵢ |wᵢ| ≤ 1` (for instance the mean over all outputs): the gradient
`∑ᵢ wᵢ e^{θ tᵢ}` with respect to the initial state is approached with fifth order, uniformly in the number of outputs. -/
example (θ x0 : ℝ) : ∃ C δ, 0 < δ ∧ ∀ (t1 : ℝ) (rest : List ℝ) (h : ℝ) (w : List ℝ) (atol rtol : ℝ), h ≤ δ →
    Increasing (0 :: t1 :: rest) → (0 :: t1 :: rest).getLast? = some 1 → GapsAtMost h (0 :: t1 :: rest) →
    w.length = (0 :: t1 :: rest).length → (w.map fun c => |c|).sum ≤ 1 → 0 < atol → 0 ≤ rtol →
    ∃ fuel sol μ lam d d',
      odeint fuel (pureField fun _ x => fun i => θ * x i) (fun _ => x0) (0 :: t1 :: rest)
        (dopri5Solver (Except PyErr) ℝ (Unit → ℝ) Unit) atol rtol false false [] () Finset.univ = .ok (some (0 :: t1 :: rest, sol)) ∧
      adjointBackward (adjointOdeint fuel (dopri5Solver (Except PyErr) ℝ (AdjIdx Unit Unit → ℝ) Unit) atol rtol ())
        (coordAdjoint (fun p _ x i => p i * x i) fun _ => θ) (0 :: t1 :: rest) sol (List.replicate (rest.length + 2) 0)
        (List.zipWith (fun c _ => fun _ => c) w ((0 :: t1 :: rest).zip sol)) = .ok (μ, lam, d, d') ∧
      |lam () - (List.zipWith (fun c t => c * Real.exp (θ * t)) w (0 :: t1 :: rest)).sum| ≤ C * h ^ 5 := by
  have hder : ∀ x : Unit → ℝ, fderiv ℝ (fun x : Unit → ℝ => x ()) x = ContinuousLinearMap.proj (R := ℝ) (φ := fun _ : Unit => ℝ) () :=
    fun x => (ContinuousLinearMap.proj (R := ℝ) (φ := fun _ : Unit => ℝ) ()).hasFDerivAt.fderiv
  obtain ⟨C, δ, hδ, H⟩ := C148_dopri5_checkpoints (κ := Unit) (f := fun p _ x i => p i * x i) (by fun_prop)
    (θ := fun _ => θ) (x0 := fun _ => x0) (ℓ := fun _ x => x ()) (fun _ => by fun_prop)
    (by simp only [hder]; exact contDiff_const) (t0 := 0) (T := 1) one_pos
    (fun q t _ => q.2 () * Real.exp (q.1 () * t))
    (Filter.Eventually.of_forall fun q => ⟨by funext i; simp, fun t _ => by
      refine hasDerivWithinAt_pi.2 fun i => ?_
      have h1 : HasDerivAt (fun t : ℝ => q.2 () * Real.exp (q.1 () * t)) (q.2 () * (Real.exp (q.1 () * t) * (q.1 () * 1))) t :=
        ((((hasDerivAt_id t).const_mul (q.1 ())).exp).const_mul (q.2 ()))
      refine h1.hasDerivWithinAt.congr_deriv ?_
      cases i
      ring⟩) () () 1
  refine ⟨C, δ, hδ, fun t1 rest h w atol rtol h1 h2 h3 h4 h5 h6 h7 h8 => ?_⟩
  obtain ⟨D, hD, fuel, sol, μ, lam, d, d', -, g3, -, g5⟩ := H t1 rest h w atol rtol atol rtol [] Finset.univ h1 h2 h3 h4 h5 h6 h7 h8
    h7 h8
  obtain ⟨g6, g7⟩ := g3 fuel le_rfl
  refine ⟨fuel, sol, μ, lam, d, d', g6, ?_, ?_⟩
  · rw [← g7]
    congr 3
    funext c p i
    rw [hder]
    simp
  · have hlin : ∀ (w ts : List ℝ) (x : ℝ), (List.zipWith (fun c t => c * (x * Real.exp (θ * t))) w ts).sum =
        x * (List.zipWith (fun c t => c * Real.exp (θ * t)) w ts).sum := by
      intro w
      induction w with
      | nil => simp
      | cons c w ih =>
        intro ts x
        cases ts with
        | nil => simp
        | cons t ts =>
          simp only [List.zipWith_cons_cons, List.sum_cons, ih]
          ring
    have hl : HasDerivAt (fun s : ℝ => (((fun _ => θ), (fun _ => x0 + s)) : (Unit → ℝ) × (Unit → ℝ))) (0, fun _ => 1) 0 := by
      refine HasDerivAt.prodMk (hasDerivAt_pi.2 fun _ => hasDerivAt_const 0 θ) (hasDerivAt_pi.2 fun _ => ?_)
      simpa using (hasDerivAt_id (0 : ℝ)).const_add x0
    have hD' : HasFDerivAt (fun q : (Unit → ℝ) × (Unit → ℝ) =>
        (List.zipWith (fun c t => c * (q.2 () * Real.exp (q.1 () * t))) w (0 :: t1 :: rest)).sum) D
          ((fun s : ℝ => (((fun _ => θ), (fun _ => x0 + s)) : (Unit → ℝ) × (Unit → ℝ))) 0) := by
      simpa using hD
    have line := hD'.comp_hasDerivAt 0 hl
    simp only [Function.comp_def, hlin] at line
    have val : HasDerivAt (fun s : ℝ => (x0 + s) * (List.zipWith (fun c t => c * Real.exp (θ * t)) w (0 :: t1 :: rest)).sum)
        (1 * (List.zipWith (fun c t => c * Real.exp (θ * t)) w (0 :: t1 :: rest)).sum) 0 :=
      ((hasDerivAt_id (0 : ℝ)).const_add x0).mul_const _
    have e1 : (Pi.single () 1 : Unit → ℝ) = fun _ => 1 := by funext i; simp
    have e2 := line.unique val
    rw [one_mul] at e2
    rw [← e2, ← e1]
    convert g5 ()

end Torchdyn
