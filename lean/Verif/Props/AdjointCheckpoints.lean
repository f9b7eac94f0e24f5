import Verif.Props.AdjointNumerics
import Verif.Props.UniformConvergence
import Verif.Spec.BackPass

/-!
Property C109: gradients of losses that read every output of `odeint` (checkpoint losses, averages over the trajectory, plus
an integral loss), computed with the numerical adjoint of sensitivity.py:43-98, converge with the order of the solvers; the
constant depends on the total weight of the loss and not on the number of outputs.
-/

set_option linter.unusedSectionVars false
set_option linter.unusedSimpArgs false

namespace Torchdyn

open Spec Set
open scoped Topology

variable {X P : Type} [NormedAddCommGroup X] [NormedSpace ℝ X] [FiniteDimensional ℝ X]
  [NormedAddCommGroup P] [NormedSpace ℝ P] [FiniteDimensional ℝ P] {A A' : Type} {f : P → ℝ → X → X}

/-- Growth of exact cotangents along `y`, backward in time. -/
theorem adjoint_growth (hf : ContDiff ℝ 1 fun q : P × ℝ × X => f q.1 q.2.1 q.2.2) (θ : P)
    {dg : Option (ℝ → X → (X →L[ℝ] ℝ))} (hdg : Continuous fun p : ℝ × X => lossCot dg p.1 p.2) {y : ℝ → X} {t0 T : ℝ}
    (hy : ContinuousOn y (Icc t0 T)) :
    ∃ B : ℝ, 0 < B ∧ ∀ (z : ℝ → AdjS X P) (a b : ℝ), t0 ≤ a → b ≤ T →
      SolvesOn (adjointDynamics (smoothAdjoint f θ dg)) z a b → (∀ t ∈ Icc a b, (z t).1 = y t) →
      ∀ t ∈ Icc a b, ‖(z t).2‖ + 1 ≤ Real.exp (B * (b - t)) * (‖(z b).2‖ + 1) := by
  have hd : Differentiable ℝ fun q : P × ℝ × X => f q.1 q.2.1 q.2.2 := hf.differentiable (by simp)
  have hD : Continuous (fderiv ℝ fun q : P × ℝ × X => f q.1 q.2.1 q.2.2) := hf.continuous_fderiv (by simp)
  have hDy : ContinuousOn (fun t => fderiv ℝ (fun q : P × ℝ × X => f q.1 q.2.1 q.2.2) (θ, t, y t)) (Icc t0 T) :=
    hD.comp_continuousOn (continuousOn_const.prodMk (continuousOn_id.prodMk hy))
  have hx : ContinuousOn (fun t => fderiv ℝ (fun x' => f θ t x') (y t)) (Icc t0 T) := by
    simp only [partial_x hd]
    exact hDy.clm_comp continuousOn_const
  have hp : ContinuousOn (fun t => fderiv ℝ (fun θ' => f θ' t (y t)) θ) (Icc t0 T) := by
    simp only [partial_p hd]
    exact hDy.clm_comp continuousOn_const
  have ht : ContinuousOn (fun t => deriv (fun s => f θ s (y t)) t) (Icc t0 T) := by
    simp only [partial_t hd]
    exact hDy.clm_apply continuousOn_const
  have hgc : ContinuousOn (fun t => lossCot dg t (y t)) (Icc t0 T) := hdg.comp_continuousOn (continuousOn_id.prodMk hy)
  obtain ⟨C1, hC1⟩ := isCompact_Icc.exists_bound_of_continuousOn hx
  obtain ⟨C2, hC2⟩ := isCompact_Icc.exists_bound_of_continuousOn hp
  obtain ⟨C3, hC3⟩ := isCompact_Icc.exists_bound_of_continuousOn ht
  obtain ⟨C4, hC4⟩ := isCompact_Icc.exists_bound_of_continuousOn hgc
  obtain ⟨B, hB, b1, b2, b3, b4⟩ : ∃ B : ℝ, 0 < B ∧ C1 ≤ B ∧ C2 ≤ B ∧ C3 ≤ B ∧ C4 ≤ B :=
    ⟨max 1 (max C1 (max C2 (max C3 C4))), by positivity, by simp, by simp, by simp, by simp⟩
  refine ⟨B, hB, fun z a b ha hb hz hzy t htm => ?_⟩
  have hz2 : SolvesOn (fun s (w : (X →L[ℝ] ℝ) × (P →L[ℝ] ℝ) × ℝ) => (adjointDynamics (smoothAdjoint f θ dg) s (z s)).2)
      (fun s => (z s).2) a b := fun s hs => (hz s hs).snd
  have hr := hz2.reverse
  have hbd : ∀ s ∈ Icc a b, ‖(adjointDynamics (smoothAdjoint f θ dg) s (z s)).2‖ ≤ B * ‖(z s).2‖ + B := by
    intro s hs
    have hs' : s ∈ Icc t0 T := ⟨ha.trans hs.1, hs.2.trans hb⟩
    have h1 : ‖(z s).2.1‖ ≤ ‖(z s).2‖ := by
      rw [Prod.norm_def (z s).2]
      exact le_max_left _ _
    have hn := norm_nonneg (z s).2
    rw [adjointDynamics_smooth, hzy s hs]
    simp only
    rw [Prod.norm_def, Prod.norm_def]
    refine max_le ?_ (max_le ?_ ?_)
    · refine (norm_sub_le _ _).trans (add_le_add ?_ ((hC4 s hs').trans b4))
      rw [norm_neg]
      refine (ContinuousLinearMap.opNorm_comp_le _ _).trans ?_
      rw [mul_comm]
      exact mul_le_mul ((hC1 s hs').trans b1) h1 (norm_nonneg _) hB.le
    · rw [norm_neg]
      refine ((ContinuousLinearMap.opNorm_comp_le _ _).trans ?_).trans (le_add_of_nonneg_right hB.le)
      rw [mul_comm]
      exact mul_le_mul ((hC2 s hs').trans b2) h1 (norm_nonneg _) hB.le
    · rw [norm_neg]
      refine ((ContinuousLinearMap.le_opNorm _ _).trans ?_).trans (le_add_of_nonneg_right hB.le)
      rw [mul_comm]
      exact mul_le_mul ((hC3 s hs').trans b3) h1 (norm_nonneg _) hB.le
  have hg := norm_le_gronwallBound_of_norm_deriv_right_le (f := fun s => (z (-s)).2)
    (f' := fun s => -(adjointDynamics (smoothAdjoint f θ dg) (-s) (z (-s))).2) (δ := ‖(z b).2‖) (K := B) (ε := B)
    (a := -b) (b := -a) (fun s hs => (hr s hs).continuousWithinAt)
    (fun s hs => (hr s (Ico_subset_Icc_self hs)).mono_of_mem_nhdsWithin (Icc_mem_nhdsGE_of_mem hs)) (by simp)
    (fun s hs => by
      rw [norm_neg]
      exact hbd (-s) ⟨by linarith [hs.2], by linarith [hs.1]⟩)
    (-t) ⟨by linarith [htm.2], by linarith [htm.1]⟩
  rw [gronwallBound_of_K_ne_0 hB.ne', div_self hB.ne', neg_neg, show -t - -b = b - t from by ring] at hg
  linarith

theorem take_sum_nonneg {w : List ℝ} (hw : ∀ ω ∈ w, 0 ≤ ω) (i : ℕ) : 0 ≤ (w.take i).sum :=
  List.sum_nonneg fun ω hω => hw ω (List.mem_of_mem_take hω)

/-- What the backward loop does with the cotangent `g` of an output: it is added to the adjoint state. -/
def adjJump (S : AdjS X P) (g : X →L[ℝ] ℝ) : AdjS X P := (S.1, S.2.1 + g, S.2.2.1, S.2.2.2)

/-- Numerical and exact backward loops side by side. -/
theorem adjointLoop_near (hf : ContDiff ℝ 1 fun q : P × ℝ × X => f q.1 q.2.1 q.2.2) {θ : P}
    {dg : Option (ℝ → X → (X →L[ℝ] ℝ))} {y : ℝ → X} {t0 T B L C δ h ε Q R : ℝ} {p : ℕ} (hy : SolvesOn (f θ) y t0 T)
    (hyR : ∀ t ∈ Icc t0 T, ‖y t‖ ≤ R) (hB : 0 < B)
    (hgrow : ∀ (z : ℝ → AdjS X P) (a b : ℝ), t0 ≤ a → b ≤ T →
      SolvesOn (adjointDynamics (smoothAdjoint f θ dg)) z a b → (∀ t ∈ Icc a b, (z t).1 = y t) →
      ∀ t ∈ Icc a b, ‖(z t).2‖ + 1 ≤ Real.exp (B * (b - t)) * (‖(z b).2‖ + 1))
    {ψ : AdjS X P → ℝ → ℝ → AdjS X P} (hC : 0 ≤ C) (hL : 0 ≤ L) (hε : 0 ≤ ε) (hh0 : 0 ≤ h) (hhδ : h ≤ δ)
    (hstep : ∀ (z : ℝ → AdjS X P) (t g : ℝ) (x : AdjS X P), -T ≤ t → 0 ≤ g → g ≤ δ → t + g ≤ -t0 →
      (∀ s ∈ Icc t (t + g), HasDerivWithinAt z (-adjointDynamics (smoothAdjoint f θ dg) (-s) (z s)) (Icc t (t + g)) s ∧
        ‖z s‖ ≤ R) → ‖x - z t‖ ≤ 1 →
      ‖ψ x t g - z (t + g)‖ ≤ (1 + L * g) * ‖x - z t‖ + C * g ^ (p + 1))
    (hR : Real.exp (B * (T - t0)) * Q ≤ R) (hsmall : Real.exp (L * (T - t0)) * (ε * Q + C * h ^ p * (T - t0)) ≤ 1)
    {solver : Solver (Except PyErr) ℝ (AdjS X P) A} {args : A}
    (hψ : SteppedBy solver (fun s w => -adjointDynamics (smoothAdjoint f θ dg) (-s) w) args ψ)
    {solve} (hsolve : ExactAlong solve (smoothAdjoint f θ dg) y t0 T) {ts : List ℝ} (hinc : ts.Pairwise (· < ·))
    (hts : ∀ t ∈ ts, t0 ≤ t ∧ t ≤ T)
    (hgap : ∀ (k : ℕ) (t t' : ℝ), ts[k]? = some t → ts[k + 1]? = some t' → t' - t ≤ h) {gt : List ℝ}
    (hgt : ∀ j < ts.length, gt[j]? = some 0) {gx gx' : List (X →L[ℝ] ℝ)} {w : List ℝ} (hw : ∀ ω ∈ w, 0 ≤ ω)
    (hgx : ∀ j < ts.length, ∃ a a' ω, gx[j]? = some a ∧ gx'[j]? = some a' ∧ w[j]? = some ω ∧ ‖a'‖ ≤ ω ∧ ‖a - a'‖ ≤ ω * ε) :
    ∀ (i : ℕ) (S Z : AdjS X P) (σ d d' τ : ℝ), ts[i]? = some τ → Z.1 = y τ →
      ‖Z.2‖ + 1 ≤ Real.exp (B * (T - τ)) * σ → ‖S - Z‖ ≤ Real.exp (L * (T - τ)) * (ε * σ + C * h ^ p * (T - τ)) →
      σ + (w.take i).sum ≤ Q →
      ∃ S' Z' e', backPass ψ adjJump ts gx i S = some S' ∧
        (Separated ts → ∃ e, adjointLoop (fun g S ts => odeintFixed g S ts solver [] args) (smoothAdjoint f θ dg) ts gt gx i S d =
          .ok (S', e)) ∧
        adjointLoop solve (smoothAdjoint f θ dg) ts gt gx' i Z d' = .ok (Z', e') ∧
        ‖S' - Z'‖ ≤ Real.exp (L * (T - t0)) * (ε * Q + C * h ^ p * (T - t0)) := by
  have : ProperSpace X := FiniteDimensional.proper ℝ X
  have hd : Differentiable ℝ fun q : P × ℝ × X => f q.1 q.2.1 q.2.2 := hf.differentiable (by simp)
  have hmono : ∀ {τ σ : ℝ}, t0 ≤ τ → τ ≤ T → 0 ≤ σ → σ ≤ Q → Real.exp (L * (T - τ)) * (ε * σ + C * h ^ p * (T - τ)) ≤
      Real.exp (L * (T - t0)) * (ε * Q + C * h ^ p * (T - t0)) := by
    intro τ σ h0 h1 hσ0 hσ
    have hp := pow_nonneg hh0 p
    have hCp : 0 ≤ C * h ^ p := mul_nonneg hC hp
    refine mul_le_mul (Real.exp_le_exp.2 (mul_le_mul_of_nonneg_left (by linarith) hL)) (add_le_add
      (mul_le_mul_of_nonneg_left hσ hε) (mul_le_mul_of_nonneg_left (by linarith) hCp)) ?_ (Real.exp_pos _).le
    exact add_nonneg (mul_nonneg hε hσ0) (mul_nonneg hCp (by linarith))
  intro i
  induction i with
  | zero =>
    intro S Z σ d d' τ hτ _ hZ hS hσ
    have hτm := hts τ (List.mem_of_getElem? hτ)
    have hσ0 : 0 ≤ σ := by
      have h1 : 0 < Real.exp (B * (T - τ)) * σ := lt_of_lt_of_le (by positivity) hZ
      exact (pos_of_mul_pos_right h1 (Real.exp_pos _).le).le
    exact ⟨S, Z, d', rfl, fun _ => ⟨d, rfl⟩, rfl, hS.trans (hmono hτm.1 hτm.2 hσ0 (by simpa using hσ))⟩
  | succ i ih =>
    intro S Z σ d d' τ hτ hZy hZ hS hσ
    obtain ⟨hi, rfl⟩ := List.getElem?_eq_some_iff.1 hτ
    have hi' : i < ts.length := by omega
    have hlt : ts[i] < ts[i + 1] := List.pairwise_iff_getElem.1 hinc i (i + 1) hi' hi (by omega)
    have hm1 := hts _ (List.getElem_mem hi)
    have hm0 := hts _ (List.getElem_mem hi')
    have hg := hgap i _ _ (List.getElem?_eq_getElem hi') (List.getElem?_eq_getElem hi)
    have hnum : Separated ts → _ := fun hsep =>
      odeintFixed_back_step hψ S hlt (List.pairwise_iff_getElem.1 hsep i (i + 1) hi' hi (by omega)).2
        (List.pairwise_iff_getElem.1 hsep i (i + 1) hi' hi (by omega)).1
    obtain ⟨a, a', ω, hga, hga', hwω, hω1, hω2⟩ := hgx i hi'
    generalize htLo : ts[i] = tLo at *
    generalize htHi : ts[i + 1] = tHi at *
    obtain ⟨z, tr, hz0, hz, hex⟩ := hsolve Z tHi tLo hm0.1 hlt hm1.2 hZy
    have hω0 : 0 ≤ ω := hw ω (List.mem_of_getElem? hwω)
    have htake : (w.take (i + 1)).sum = (w.take i).sum + ω := by
      rw [List.take_add_one, hwω]
      simp
    rw [htake] at hσ
    have htk := take_sum_nonneg hw i
    have hσQ : σ ≤ Q := by linarith
    have hσ0 : 0 ≤ σ := by
      have h1 : 0 < Real.exp (B * (T - tHi)) * σ := lt_of_lt_of_le (by positivity) hZ
      exact (pos_of_mul_pos_right h1 (Real.exp_pos _).le).le
    -- the exact solution of the adjoint equation follows `y`
    have hz1 : SolvesOn (f θ) (fun s => (z s).1) tLo tHi := by
      intro s hs
      have h1 := (hz s hs).fst
      rwa [adjointDynamics_smooth] at h1
    have hzy : ∀ t ∈ Icc tLo tHi, (z t).1 = y t := by
      refine backward_unique (g := f θ) ?_ ?_ hz1 (hy.mono hm0.1 hm1.2) (by simp only [hz0]; exact hZy)
      · simp only [partial_x hd]
        have h1 : Continuous fun p : ℝ × X => fderiv ℝ (fun q : P × ℝ × X => f q.1 q.2.1 q.2.2) (θ, p.1, p.2) :=
          (hf.continuous_fderiv (by simp)).comp (by fun_prop : Continuous fun p : ℝ × X => ((θ, p.1, p.2) : P × ℝ × X))
        exact h1.clm_comp continuous_const
      · intro t
        exact hd.comp (by fun_prop : Differentiable ℝ fun x : X => ((θ, t, x) : P × ℝ × X))
    have hzg : ∀ t ∈ Icc tLo tHi, ‖(z t).2‖ + 1 ≤ Real.exp (B * (T - t)) * σ := by
      intro t ht
      refine (hgrow z tLo tHi hm0.1 hm1.2 hz hzy t ht).trans ?_
      rw [hz0]
      calc Real.exp (B * (tHi - t)) * (‖Z.2‖ + 1) ≤ Real.exp (B * (tHi - t)) * (Real.exp (B * (T - tHi)) * σ) :=
            mul_le_mul_of_nonneg_left hZ (Real.exp_pos _).le
        _ = Real.exp (B * (T - t)) * σ := by
            rw [← mul_assoc, ← Real.exp_add]
            congr 2
            ring
    have hzR : ∀ t ∈ Icc tLo tHi, ‖z t‖ ≤ R := by
      intro t ht
      rw [Prod.norm_def, hzy t ht]
      refine max_le (hyR t ⟨hm0.1.trans ht.1, ht.2.trans hm1.2⟩) ?_
      have h1 := hzg t ht
      have h2 : Real.exp (B * (T - t)) * σ ≤ Real.exp (B * (T - t0)) * Q :=
        mul_le_mul (Real.exp_le_exp.2 (mul_le_mul_of_nonneg_left (by linarith [ht.1, hm0.1]) hB.le)) hσQ hσ0
          (Real.exp_pos _).le
      linarith
    have hS1 : ‖S - Z‖ ≤ 1 := hS.trans ((hmono hm1.1 hm1.2 hσ0 hσQ).trans hsmall)
    have hst := hstep (fun s => z (-s)) (-tHi) (-tLo - -tHi) S (by linarith) (by linarith) (by linarith) (by linarith)
      (by
        rw [show -tHi + (-tLo - -tHi) = -tLo from by ring]
        exact fun s hs => ⟨hz.reverse s hs, hzR (-s) ⟨by linarith [hs.2], by linarith [hs.1]⟩⟩)
      (by simpa only [neg_neg, hz0] using hS1)
    rw [show -tHi + (-tLo - -tHi) = -tLo from by ring] at hst
    simp only [neg_neg, hz0] at hst
    generalize hS'd : ψ S (-tHi) (-tLo - -tHi) = S1 at *
    rw [show -tLo - -tHi = tHi - tLo from by ring] at hst
    have hg0 : 0 ≤ tHi - tLo := by linarith
    have hJ : ‖((S1.1, S1.2.1 + a, S1.2.2.1, S1.2.2.2 - 0) : AdjS X P) -
        ((z tLo).1, (z tLo).2.1 + a', (z tLo).2.2.1, (z tLo).2.2.2 - 0)‖ ≤ ‖S1 - z tLo‖ + ω * ε := by
      have e : ((S1.1, S1.2.1 + a, S1.2.2.1, S1.2.2.2 - 0) : AdjS X P) -
        ((z tLo).1, (z tLo).2.1 + a', (z tLo).2.2.1, (z tLo).2.2.2 - 0) = (S1 - z tLo) + (0, a - a', 0, 0) := by
        ext1
        · simp
        · ext1
          · simp only [Prod.snd_sub, Prod.fst_sub, Prod.snd_add, Prod.fst_add]
            abel
          · ext1 <;> simp
      rw [e]
      refine (norm_add_le _ _).trans (add_le_add le_rfl ?_)
      rw [Prod.norm_def, Prod.norm_def, Prod.norm_def]
      simp only [norm_zero, max_self]
      exact max_le (mul_nonneg hω0 hε) (max_le hω2 (mul_nonneg hω0 hε))
    obtain ⟨S', Z', e', hl0, hl1, hl2, hfin⟩ := ih (S1.1, S1.2.1 + a, S1.2.2.1, S1.2.2.2 - 0)
      ((z tLo).1, (z tLo).2.1 + a', (z tLo).2.2.1, (z tLo).2.2.2 - 0) (σ + ω)
      ((smoothAdjoint f θ dg).pair S1.2.1 ((smoothAdjoint f θ dg).vf tHi S1.1))
      ((smoothAdjoint f θ dg).pair (z tLo).2.1 ((smoothAdjoint f θ dg).vf tHi (z tLo).1)) tLo
      (by rw [List.getElem?_eq_getElem hi', htLo]) (hzy tLo ⟨le_rfl, hlt.le⟩) (by
        have h1 := hzg tLo ⟨le_rfl, hlt.le⟩
        have h2 : ‖(((z tLo).2.1 + a', (z tLo).2.2.1, (z tLo).2.2.2 - 0) : (X →L[ℝ] ℝ) × (P →L[ℝ] ℝ) × ℝ)‖ ≤
            ‖(z tLo).2‖ + ω := by
          have e : (((z tLo).2.1 + a', (z tLo).2.2.1, (z tLo).2.2.2 - 0) : (X →L[ℝ] ℝ) × (P →L[ℝ] ℝ) × ℝ) =
              (z tLo).2 + (a', 0, 0) := by
            ext1
            · rfl
            · ext1 <;> simp
          rw [e]
          refine (norm_add_le _ _).trans (add_le_add le_rfl ?_)
          rw [Prod.norm_def, Prod.norm_def]
          simp only [norm_zero, max_self]
          exact max_le hω1 hω0
        have h3 : ω ≤ Real.exp (B * (T - tLo)) * ω :=
          le_mul_of_one_le_left hω0 (Real.one_le_exp (mul_nonneg hB.le (by linarith)))
        rw [mul_add]
        linarith) (by
        refine hJ.trans ?_
        have hE1 : 1 + L * (tHi - tLo) ≤ Real.exp (L * (tHi - tLo)) := by
          have := Real.add_one_le_exp (L * (tHi - tLo))
          linarith
        have hEm : Real.exp (L * (T - tLo)) = Real.exp (L * (tHi - tLo)) * Real.exp (L * (T - tHi)) := by
          rw [← Real.exp_add]
          congr 1
          ring
        have hE0 : 1 ≤ Real.exp (L * (T - tLo)) := Real.one_le_exp (mul_nonneg hL (by linarith))
        have hCp : 0 ≤ C * h ^ p := mul_nonneg hC (pow_nonneg hh0 p)
        have hpw : C * (tHi - tLo) ^ (p + 1) ≤ C * h ^ p * (tHi - tLo) := by
          rw [pow_succ, ← mul_assoc]
          exact mul_le_mul_of_nonneg_right (mul_le_mul_of_nonneg_left (pow_le_pow_left₀ hg0 hg p) hC) hg0
        have h1 : (1 + L * (tHi - tLo)) * ‖S - Z‖ ≤
            Real.exp (L * (T - tLo)) * (ε * σ + C * h ^ p * (T - tHi)) := by
          rw [hEm, mul_assoc]
          exact mul_le_mul hE1 hS (norm_nonneg _) (Real.exp_pos _).le
        have h2 : C * h ^ p * (tHi - tLo) ≤ Real.exp (L * (T - tLo)) * (C * h ^ p * (tHi - tLo)) :=
          le_mul_of_one_le_left (mul_nonneg hCp hg0) hE0
        have h3 : ω * ε ≤ Real.exp (L * (T - tLo)) * (ω * ε) := le_mul_of_one_le_left (mul_nonneg hω0 hε) hE0
        have e4 : Real.exp (L * (T - tLo)) * (ε * (σ + ω) + C * h ^ p * (T - tLo)) =
            Real.exp (L * (T - tLo)) * (ε * σ + C * h ^ p * (T - tHi)) +
              Real.exp (L * (T - tLo)) * (C * h ^ p * (tHi - tLo)) + Real.exp (L * (T - tLo)) * (ω * ε) := by ring
        rw [e4]
        linarith) (by linarith)
    refine ⟨S', Z', e', ?_, fun hsep => ?_, ?_, hfin⟩
    · rw [backPass, List.getElem?_eq_getElem hi', List.getElem?_eq_getElem hi, hga, htLo, htHi]
      simp only
      rw [← show -tLo - -tHi = tHi - tLo from by ring, hS'd]
      simpa only [adjJump, sub_zero] using hl0
    · obtain ⟨e, hl1⟩ := hl1 hsep
      refine ⟨e, ?_⟩
      have hnum := hnum hsep
      rw [adjointLoop]
      simp only [bind, Except.bind, pure, Except.pure, getItem, List.getElem?_eq_getElem hi',
        List.getElem?_eq_getElem hi, hgt i hi', hga, htLo, htHi]
      have e : odeintFixed (fun t S => Except.ok (adjointDynamics (smoothAdjoint f θ dg) t S)) S [tHi, tLo] solver [] args =
          .ok ([-tHi, -tLo], [S, S1]) := hnum
      rw [e]
      simp only [getLastItem, List.getLast?_cons_cons, List.getLast?_singleton, pure, Except.pure]
      exact hl1
    · rw [adjointLoop]
      simp only [bind, Except.bind, pure, Except.pure, getItem, List.getElem?_eq_getElem hi',
        List.getElem?_eq_getElem hi, hgt i hi', hga', htLo, htHi]
      simp only [pure, Except.pure] at hex
      rw [hex]
      simp only [getLastItem, List.getLast?_cons_cons, List.getLast?_singleton, pure, Except.pure]
      exact hl2

/-- Gradients of the loss `∑ᵢ wᵢ ℓ(tᵢ, x(tᵢ))` over all outputs, plus an integral loss, have error `O(h ^ p)`: for every bound
`M` there are `C` and `δ` such that on every increasing grid from `t0` to `T` with gaps at most `h ≤ δ` and for all weights with
`∑ᵢ |wᵢ| ≤ M`, the loss along the true solutions `Y` is differentiable in parameters and initial state, and stepping forward
and then backward over the same times, adding the gradients of the loss at the computed states, ends with `μ` and `λ` that
differ from the derivative by at most `C h ^ p`. On every grid that `odeint` accepts these are the states of the forward pass
and the gradients returned by the backward pass. -/
def CheckpointGradientOrder (p : ℕ) (solver : Solver (Except PyErr) ℝ X A) (args : A)
    (solverAdj : Solver (Except PyErr) ℝ (AdjS X P) A') (argsAdj : A') (f : P → ℝ → X → X) (θ : P)
    (dg : Option (ℝ → X → (X →L[ℝ] ℝ))) (G : ℝ → X → ℝ) (ℓ : ℝ → X → ℝ) (x0 : X) (t0 T : ℝ) (Y : P × X → ℝ → X) : Prop :=
  ∀ M : ℝ, ∃ C δ, 0 < δ ∧ ∀ (t1 : ℝ) (rest : List ℝ) (h : ℝ) (w : List ℝ), h ≤ δ → (t0 :: t1 :: rest).Pairwise (· < ·) →
    (t0 :: t1 :: rest).getLast? = some T →
    (∀ (k : ℕ) (t t' : ℝ), (t0 :: t1 :: rest)[k]? = some t → (t0 :: t1 :: rest)[k + 1]? = some t' → t' - t ≤ h) →
    w.length = (t0 :: t1 :: rest).length → (w.map fun c => |c|).sum ≤ M →
    ∃ (D : P × X →L[ℝ] ℝ) (φ : X → ℝ → ℝ → X) (ψ : AdjS X P → ℝ → ℝ → AdjS X P) (sol : List X) (xT : X) (gx : List (X →L[ℝ] ℝ))
      (gT : X →L[ℝ] ℝ) (S' : AdjS X P),
      HasFDerivAt (fun q => (List.zipWith (fun c s => c * ℓ s (Y q s)) w (t0 :: t1 :: rest)).sum +
        ∫ s in t0..T, G s (Y q s)) D (θ, x0) ∧
      SteppedBy solver (f θ) args φ ∧ IsTrajectory φ x0 (t0 :: t1 :: rest) sol ∧ sol.getLast? = some xT ∧
      gx = List.zipWith (fun c p => c • fderiv ℝ (ℓ p.1) p.2) w ((t0 :: t1 :: rest).zip sol) ∧ gx.getLast? = some gT ∧
      SteppedBy solverAdj (fun s w => -adjointDynamics (smoothAdjoint f θ dg) (-s) w) argsAdj ψ ∧
      backPass ψ (fun S g => (S.1, S.2.1 + g, S.2.2.1, S.2.2.2)) (t0 :: t1 :: rest) gx (rest.length + 1)
        (xT, gT, 0, gT (f θ T xT)) = some S' ∧
      ‖S'.2.2.1.coprod S'.2.1 - D‖ ≤ C * h ^ p ∧
      (Separated (t0 :: t1 :: rest) →
        odeintFixed (pureField (f θ)) x0 (t0 :: t1 :: rest) solver [] args = .ok (t0 :: t1 :: rest, sol) ∧
        ∃ d d', adjointBackward (fun g S ts => odeintFixed g S ts solverAdj [] argsAdj) (smoothAdjoint f θ dg)
          (t0 :: t1 :: rest) sol (List.replicate (rest.length + 2) 0) gx = .ok (S'.2.2.1, S'.2.1, d, d'))

theorem zipWith_zipWith_left {α β γ ε : Type} (g : γ → β → ε) (k : α → β → γ) :
    ∀ (w : List α) (ts : List β), List.zipWith g (List.zipWith k w ts) ts = List.zipWith (fun c s => g (k c s) s) w ts
  | [], _ => by simp
  | _ :: _, [] => by simp
  | c :: w, t :: ts => by simp [zipWith_zipWith_left g k w ts]

theorem coprod_sub_le (S Z : AdjS X P) : ‖S.2.2.1.coprod S.2.1 - Z.2.2.1.coprod Z.2.1‖ ≤ 2 * ‖S - Z‖ := by
  have e : S.2.2.1.coprod S.2.1 - Z.2.2.1.coprod Z.2.1 = (S.2.2.1 - Z.2.2.1).coprod (S.2.1 - Z.2.1) := by
    ext v <;> simp
  have n1 : ‖S.2.1 - Z.2.1‖ ≤ ‖S - Z‖ := by
    rw [Prod.norm_def (S - Z), Prod.norm_def (S - Z).2]
    exact (le_max_left _ _).trans (le_max_right _ _)
  have n2 : ‖S.2.2.1 - Z.2.2.1‖ ≤ ‖S - Z‖ := by
    rw [Prod.norm_def (S - Z), Prod.norm_def (S - Z).2, Prod.norm_def (S - Z).2.2]
    exact (le_max_left _ _).trans ((le_max_right _ _).trans (le_max_right _ _))
  rw [e]
  refine ContinuousLinearMap.opNorm_le_bound _ (by positivity) fun v => ?_
  rw [ContinuousLinearMap.coprod_apply]
  refine (norm_add_le _ _).trans ?_
  have v1 := (ContinuousLinearMap.le_opNorm (S.2.2.1 - Z.2.2.1) v.1).trans
    (mul_le_mul n2 (norm_fst_le v) (norm_nonneg _) (norm_nonneg _))
  have v2 := (ContinuousLinearMap.le_opNorm (S.2.1 - Z.2.1) v.2).trans
    (mul_le_mul n1 (norm_snd_le v) (norm_nonneg _) (norm_nonneg _))
  linarith

set_option maxHeartbeats 1000000 in
-- many side conditions in one proof
theorem checkpoint_gradients {p : ℕ} (hp : p ≠ 0) {f : P → ℝ → X → X}
    (hf : ContDiff ℝ 1 fun q : P × ℝ × X => f q.1 q.2.1 q.2.2) {θ : P} {x0 : X}
    {dg : Option (ℝ → X → (X →L[ℝ] ℝ))} (hdg : Continuous fun p : ℝ × X => lossCot dg p.1 p.2)
    {G : ℝ → X → ℝ} (hGc : Continuous fun p : ℝ × X => G p.1 p.2) (hG : ∀ t x, HasFDerivAt (G t) (lossCot dg t x) x)
    {ℓ : ℝ → X → ℝ} (hℓd : ∀ t, Differentiable ℝ (ℓ t)) (hℓ : ContDiff ℝ 1 fun p : ℝ × X => fderiv ℝ (ℓ p.1) p.2) {t0 T : ℝ}
    (htT : t0 < T) (Y : P × X → ℝ → X) (hY : ∀ᶠ q in 𝓝 (θ, x0), Y q t0 = q.2 ∧ SolvesOn (f q.1) (Y q) t0 T)
    {solver : Solver (Except PyErr) ℝ X A} {args : A} {solverAdj : Solver (Except PyErr) ℝ (AdjS X P) A'} {argsAdj : A'}
    (hF : ConvergesWithOrder p solver args (f θ) (Y (θ, x0)) t0 T) {ψ : AdjS X P → ℝ → ℝ → AdjS X P}
    (hψ : SteppedBy solverAdj (fun s w => -adjointDynamics (smoothAdjoint f θ dg) (-s) w) argsAdj ψ)
    (hB : ∀ R, OneStepNear p ψ (fun s w => -adjointDynamics (smoothAdjoint f θ dg) (-s) w) R (-T) (-t0)) :
    CheckpointGradientOrder p solver args solverAdj argsAdj f θ dg G ℓ x0 t0 T Y := by
  intro M
  have hd : Differentiable ℝ fun q : P × ℝ × X => f q.1 q.2.1 q.2.2 := hf.differentiable (by simp)
  obtain ⟨hy0, hy⟩ := hY.self_of_nhds
  have hfc : Continuous fun p : ℝ × P × X => fderiv ℝ (fun q : P × X => f q.1 p.1 q.2) p.2 := by
    have e : (fun p : ℝ × P × X => fderiv ℝ (fun q : P × X => f q.1 p.1 q.2) p.2) = fun p =>
        (fderiv ℝ (fun q : P × ℝ × X => f q.1 q.2.1 q.2.2) (p.2.1, p.1, p.2.2)).comp
          ((ContinuousLinearMap.fst ℝ P X).prod ((0 : P × X →L[ℝ] ℝ).prod (ContinuousLinearMap.snd ℝ P X))) := by
      funext p
      exact (partial_q hd p.1 p.2).fderiv
    rw [e]
    have h1 : Continuous fun p : ℝ × P × X => fderiv ℝ (fun q : P × ℝ × X => f q.1 q.2.1 q.2.2) (p.2.1, p.1, p.2.2) :=
      (hf.continuous_fderiv (by simp)).comp (by fun_prop : Continuous fun p : ℝ × P × X => ((p.2.1, p.1, p.2.2) : P × ℝ × X))
    exact h1.clm_comp continuous_const
  obtain ⟨solve, hsolve⟩ := exists_exact_solve hf θ hdg hy
  have hexact := fun rest' h1 h2 ls h3 h4 gt h5 => C83_frechet hfc (fun t q => (partial_q hd t q).differentiableAt) hdg hGc hG
    Y hY hsolve rest' h1 h2 ls h3 h4 gt h5
  generalize hyd : Y (θ, x0) = y at *
  have hyc : ContinuousOn y (Icc t0 T) := fun t ht => (hy t ht).continuousWithinAt
  obtain ⟨B, hB0, hgrow⟩ := adjoint_growth (P := P) hf θ hdg hyc
  obtain ⟨Ry, hRy⟩ := isCompact_Icc.exists_bound_of_continuousOn hyc
  have hRy0 : 0 ≤ Ry := (norm_nonneg _).trans (hRy t0 ⟨le_rfl, htT.le⟩)
  obtain ⟨gl, -, ⟨Kl, hKl0, hKl⟩, ⟨Ml, hMl⟩, hgl⟩ := exists_cutoff (n := 1) one_ne_zero (by exact_mod_cast hℓ)
    (R := Ry + |t0| + |T| + 1) (by positivity)
  have hfT : ContDiff ℝ 1 fun x => f θ T x := hf.comp (by fun_prop : ContDiff ℝ 1 fun x : X => ((θ, T, x) : P × ℝ × X))
  obtain ⟨gf, -, ⟨Kf, hKf0, hKf⟩, ⟨Mf, hMf⟩, hgf⟩ := exists_cutoff (n := 1) one_ne_zero (by exact_mod_cast hfT)
    (R := Ry + 1) (by positivity)
  have hMl0 : 0 ≤ Ml := (norm_nonneg _).trans (hMl 0)
  have hMf0 : 0 ≤ Mf := (norm_nonneg _).trans (hMf 0)
  obtain ⟨C1, δ1, hδ1, H1⟩ := hF
  generalize hC1' : max C1 0 = C1'
  have hC10 : 0 ≤ C1' := hC1' ▸ le_max_right _ _
  have hC11 : C1 ≤ C1' := hC1' ▸ le_max_left _ _
  generalize hM' : max M 0 = M'
  have hM0 : 0 ≤ M' := hM' ▸ le_max_right _ _
  have hMM : M ≤ M' := hM' ▸ le_max_left _ _
  generalize hκ : (1 + Kl) * (1 + Kf) * C1' = κ
  have hκ0 : 0 ≤ κ := by rw [← hκ]; positivity
  have hκ1 : C1' ≤ κ := by
    rw [← hκ]
    exact le_mul_of_one_le_left hC10 (one_le_mul_of_one_le_of_one_le (by linarith) (by linarith))
  have hκ2 : Kl * C1' ≤ κ := by
    rw [← hκ]
    refine mul_le_mul_of_nonneg_right ?_ hC10
    have := mul_nonneg hKl0 hKf0
    linarith
  have hκ3 : Kf * C1' ≤ κ := by
    rw [← hκ]
    refine mul_le_mul_of_nonneg_right ?_ hC10
    have := mul_nonneg hKl0 hKf0
    linarith
  generalize hQ : (1 + Mf) * (1 + (1 + Ml) * M') = Q
  have hQ0 : 0 ≤ Q := by rw [← hQ]; positivity
  obtain ⟨C2, L, δ2, hC2, hL, hδ2, H2⟩ := hB (max Ry (Real.exp (B * (T - t0)) * Q))
  generalize hE : Real.exp (L * (T - t0)) * (κ * Q + C2 * (T - t0)) = E
  have hE0 : 0 ≤ E := by
    rw [← hE]
    have : 0 ≤ T - t0 := by linarith
    positivity
  refine ⟨2 * E, min (min δ1 δ2) (min 1 (min (1 / (1 + C1')) (1 / (1 + E)))),
    lt_min (lt_min hδ1 hδ2) (lt_min one_pos (lt_min (by positivity) (by positivity))), ?_⟩
  intro t1 rest h w hh hmono hlast hgap hwlen hwM
  have hh1 : h ≤ δ1 := hh.trans ((min_le_left _ _).trans (min_le_left _ _))
  have hh2 : h ≤ δ2 := hh.trans ((min_le_left _ _).trans (min_le_right _ _))
  have hh3 : h ≤ 1 := hh.trans ((min_le_right _ _).trans (min_le_left _ _))
  have hh4 : h ≤ 1 / (1 + C1') := hh.trans ((min_le_right _ _).trans ((min_le_right _ _).trans (min_le_left _ _)))
  have hh5 : h ≤ 1 / (1 + E) := hh.trans ((min_le_right _ _).trans ((min_le_right _ _).trans (min_le_right _ _)))
  rw [le_div_iff₀ (by positivity)] at hh4 hh5
  have h01 : t0 < t1 := (List.pairwise_cons.1 hmono).1 t1 (by simp)
  have hh0 : 0 ≤ h := (sub_nonneg.2 h01.le).trans (hgap 0 t0 t1 rfl rfl)
  have hhp : h ^ p ≤ h := by
    calc h ^ p ≤ h ^ 1 := pow_le_pow_of_le_one hh0 hh3 (by omega)
      _ = h := pow_one h
  have hhp0 : 0 ≤ h ^ p := by positivity
  -- the exact backward pass
  obtain ⟨μ', lam', d1, d1', hrun', hD⟩ := hexact (t1 :: rest) hmono hlast
    (List.zipWith (fun c s => fun x => c * ℓ s x) w (t0 :: t1 :: rest)) (by
      intro l hl
      rw [List.mem_iff_getElem?] at hl
      obtain ⟨j, hj⟩ := hl
      rw [List.getElem?_zipWith] at hj
      split at hj
      · cases hj
        exact (hℓd _).const_mul _
      · simp at hj) (by simp [hwlen]) (List.replicate (rest.length + 2) 0) (by simp)
  rw [zipWith_zipWith_left] at hrun'
  simp only [zipWith_zipWith_left] at hD
  generalize hts : t0 :: t1 :: rest = ts at *
  have hlen : ts.length = rest.length + 2 := by rw [← hts]; simp
  have hlastT : ts[rest.length + 1]? = some T := by
    rw [List.getLast?_eq_getElem?, hlen] at hlast
    exact hlast
  have hle : ∀ t ∈ ts, t0 ≤ t ∧ t ≤ T := by
    intro t ht
    obtain ⟨j, hj, rfl⟩ := List.getElem_of_mem ht
    constructor
    · have hm0 : (t0 :: t1 :: rest).Pairwise (· < ·) := by rw [hts]; exact hmono
      have ht' : ts[j] ∈ t0 :: t1 :: rest := by rw [hts]; exact List.getElem_mem hj
      rcases List.mem_cons.1 ht' with he | hm
      · exact he.ge
      · exact ((List.pairwise_cons.1 hm0).1 _ hm).le
    · obtain ⟨hl', hTe⟩ := List.getElem?_eq_some_iff.1 hlastT
      rw [← hTe]
      rcases Nat.lt_or_ge j (rest.length + 1) with hlt | hge
      · exact (List.pairwise_iff_getElem.1 hmono j (rest.length + 1) hj hl' hlt).le
      · have : j = rest.length + 1 := by omega
        subst this
        exact le_rfl
  -- forward pass
  obtain ⟨φ, sol, hφ, htraj, hfwd, hbd⟩ := H1 t1 rest h hh1 (by rw [hts]; exact hmono) (by rw [hts]; exact fun t ht => (hle t ht).2)
    (by rw [hts]; exact hgap)
  rw [hts] at htraj hfwd hbd
  have hsl : sol.length = ts.length := htraj.length_eq
  have hC1h : C1' * h ^ p ≤ 1 := by
    have : C1' * h ^ p ≤ C1' * h := mul_le_mul_of_nonneg_left hhp hC10
    linarith
  have hxb : ∀ (k : ℕ) (t : ℝ) (x : X), ts[k]? = some t → sol[k]? = some x → ‖x - y t‖ ≤ C1' * h ^ p := fun k t x hk hx =>
    (hbd k t x hk hx).trans (mul_le_mul_of_nonneg_right hC11 hhp0)
  have hyb : ∀ t ∈ ts, ‖y t‖ ≤ Ry := fun t ht => hRy t (hle t ht)
  have hxR : ∀ (k : ℕ) (t : ℝ) (x : X), ts[k]? = some t → sol[k]? = some x → ‖x‖ ≤ Ry + 1 := by
    intro k t x hk hx
    have h1 := hxb k t x hk hx
    have h2 := hyb t (List.mem_of_getElem? hk)
    have h3 : ‖x‖ ≤ ‖x - y t‖ + ‖y t‖ := by
      have := norm_add_le (x - y t) (y t)
      simpa using this
    linarith
  have hpair : ∀ t x, t ∈ ts → ‖x‖ ≤ Ry + 1 → ‖((t, x) : ℝ × X)‖ ≤ Ry + |t0| + |T| + 1 := by
    intro t x ht hx
    have h1 := hle t ht
    rw [Prod.norm_def]
    refine max_le ?_ ?_
    · simp only [Real.norm_eq_abs]
      rw [abs_le]
      have := neg_abs_le t0
      have := le_abs_self T
      constructor <;> [(have := abs_nonneg T); (have := abs_nonneg t0)] <;> linarith
    · have := abs_nonneg t0
      have := abs_nonneg T
      simp only
      linarith
  -- the cotangents of the two passes
  generalize hgx : List.zipWith (fun c p => c • fderiv ℝ (ℓ p.1) p.2) w (ts.zip sol) = gx
  generalize hgx' : List.zipWith (fun c s => fderiv ℝ (fun x => c * ℓ s x) (y s)) w ts = gx' at hrun'
  generalize hω : w.map (fun c => |c| * (1 + Ml)) = ω
  have hω0 : ∀ a ∈ ω, 0 ≤ a := by
    rw [← hω]
    intro a ha
    obtain ⟨c, -, rfl⟩ := List.mem_map.1 ha
    positivity
  have hωs : ω.sum ≤ (1 + Ml) * M' := by
    rw [← hω, List.sum_map_mul_right, mul_comm]
    exact mul_le_mul_of_nonneg_left (hwM.trans hMM) (by positivity)
  have hcot : ∀ j < ts.length, ∃ a a' o, gx[j]? = some a ∧ gx'[j]? = some a' ∧ ω[j]? = some o ∧ ‖a'‖ ≤ o ∧
      ‖a - a'‖ ≤ o * (κ * h ^ p) := by
    intro j hj
    have hjw : j < w.length := by omega
    have hjs : j < sol.length := by omega
    refine ⟨w[j] • fderiv ℝ (ℓ ts[j]) sol[j], w[j] • fderiv ℝ (ℓ ts[j]) (y ts[j]), |w[j]| * (1 + Ml), ?_, ?_, ?_, ?_, ?_⟩
    · rw [← hgx, List.getElem?_zipWith, List.getElem?_eq_getElem hjw, List.getElem?_eq_getElem (by simp; omega)]
      simp
    · rw [← hgx', List.getElem?_zipWith, List.getElem?_eq_getElem hjw, List.getElem?_eq_getElem hj]
      simp only [Option.some.injEq]
      exact fderiv_const_mul (hℓd _ _) _
    · rw [← hω, List.getElem?_map, List.getElem?_eq_getElem hjw]
      rfl
    · rw [norm_smul, Real.norm_eq_abs]
      refine mul_le_mul_of_nonneg_left ?_ (abs_nonneg _)
      have h1 := hgl (ts[j], y ts[j]) (hpair _ _ (List.getElem_mem hj) (by linarith [hyb _ (List.getElem_mem hj)]))
      simp only at h1
      rw [h1]
      linarith [hMl (ts[j], y ts[j])]
    · rw [← smul_sub, norm_smul, Real.norm_eq_abs, mul_assoc]
      refine mul_le_mul_of_nonneg_left ?_ (abs_nonneg _)
      have ht' : ts[j]? = some ts[j] := List.getElem?_eq_getElem hj
      have hx' : sol[j]? = some sol[j] := List.getElem?_eq_getElem hjs
      have h1 := hgl (ts[j], y ts[j]) (hpair _ _ (List.getElem_mem hj) (by linarith [hyb _ (List.getElem_mem hj)]))
      have h2 := hgl (ts[j], sol[j]) (hpair _ _ (List.getElem_mem hj) (hxR j _ _ ht' hx'))
      simp only at h1 h2
      rw [h1, h2]
      have h3 : ‖((ts[j], sol[j]) : ℝ × X) - (ts[j], y ts[j])‖ = ‖sol[j] - y ts[j]‖ := by
        rw [Prod.mk_sub_mk, sub_self, Prod.norm_def]
        simp
      calc ‖gl (ts[j], sol[j]) - gl (ts[j], y ts[j])‖ ≤ Kl * ‖sol[j] - y ts[j]‖ := h3 ▸ hKl _ _
        _ ≤ Kl * (C1' * h ^ p) := mul_le_mul_of_nonneg_left (hxb j _ _ ht' hx') hKl0
        _ = Kl * C1' * h ^ p := by ring
        _ ≤ κ * h ^ p := mul_le_mul_of_nonneg_right hκ2 hhp0
        _ ≤ (1 + Ml) * (κ * h ^ p) := le_mul_of_one_le_left (by positivity) (by linarith)
  -- the start of the backward pass
  obtain ⟨a, a', o, hga, hga', hoo, ho1, ho2⟩ := hcot (rest.length + 1) (by omega)
  obtain ⟨xT, hxT⟩ : ∃ xT, sol[rest.length + 1]? = some xT := ⟨_, List.getElem?_eq_getElem (by omega)⟩
  have ho0 : 0 ≤ o := hω0 o (List.mem_of_getElem? hoo)
  have hxTb := hxb _ T xT hlastT hxT
  have hTm : T ∈ ts := List.mem_of_getElem? hlastT
  have hfx : f θ T xT = gf xT := hgf xT (hxR _ _ _ hlastT hxT)
  have hfy : f θ T (y T) = gf (y T) := hgf (y T) (by linarith [hyb T hTm])
  have hnx : ‖f θ T xT‖ ≤ Mf := hfx ▸ hMf _
  have hny : ‖f θ T (y T)‖ ≤ Mf := hfy ▸ hMf _
  have hnxy : ‖f θ T xT - f θ T (y T)‖ ≤ κ * h ^ p := by
    rw [hfx, hfy]
    calc _ ≤ Kf * ‖xT - y T‖ := hKf _ _
      _ ≤ Kf * (C1' * h ^ p) := mul_le_mul_of_nonneg_left hxTb hKf0
      _ = Kf * C1' * h ^ p := by ring
      _ ≤ _ := mul_le_mul_of_nonneg_right hκ3 hhp0
  have hMo := mul_nonneg hMf0 ho0
  have hσe : (1 + Mf) * (1 + o) = 1 + o + Mf + Mf * o := by ring
  have hσ1 : 1 ≤ (1 + Mf) * (1 + o) := by linarith
  have hσ2 : o ≤ (1 + Mf) * (1 + o) := by linarith
  have hS0 : ‖((xT, a, 0, a (f θ T xT)) : AdjS X P) - (y T, a', 0, a' (f θ T (y T)))‖ ≤ κ * h ^ p * ((1 + Mf) * (1 + o)) := by
    have hkh : 0 ≤ κ * h ^ p := by positivity
    rw [Prod.mk_sub_mk, Prod.mk_sub_mk, Prod.mk_sub_mk, Prod.norm_def, Prod.norm_def, Prod.norm_def, sub_self]
    refine max_le ?_ (max_le ?_ (max_le ?_ ?_))
    · exact (hxTb.trans (mul_le_mul_of_nonneg_right hκ1 hhp0)).trans (le_mul_of_one_le_right hkh hσ1)
    · refine ho2.trans ?_
      rw [mul_comm]
      exact mul_le_mul_of_nonneg_left hσ2 hkh
    · simpa using mul_nonneg hkh (by linarith)
    · have e : a (f θ T xT) - a' (f θ T (y T)) = (a - a') (f θ T xT) + a' (f θ T xT - f θ T (y T)) := by
        rw [map_sub, sub_apply]
        ring
      simp only
      rw [e]
      refine (norm_add_le _ _).trans ?_
      have h1 : ‖(a - a') (f θ T xT)‖ ≤ o * (κ * h ^ p) * Mf :=
        ((a - a').le_opNorm _).trans (mul_le_mul ho2 hnx (norm_nonneg _) (mul_nonneg ho0 hkh))
      have h2 : ‖a' (f θ T xT - f θ T (y T))‖ ≤ o * (κ * h ^ p) :=
        (a'.le_opNorm _).trans (mul_le_mul ho1 hnxy (norm_nonneg _) ho0)
      have h3 : o * (κ * h ^ p) * Mf + o * (κ * h ^ p) = κ * h ^ p * ((1 + Mf) * o) := by ring
      have h4 : κ * h ^ p * ((1 + Mf) * o) ≤ κ * h ^ p * ((1 + Mf) * (1 + o)) :=
        mul_le_mul_of_nonneg_left (mul_le_mul_of_nonneg_left (by linarith) (by linarith)) hkh
      linarith
  have hZ0 : ‖((a', 0, a' (f θ T (y T))) : (X →L[ℝ] ℝ) × (P →L[ℝ] ℝ) × ℝ)‖ + 1 ≤ (1 + Mf) * (1 + o) := by
    have h1 : ‖a' (f θ T (y T))‖ ≤ o * Mf := (a'.le_opNorm _).trans (mul_le_mul ho1 hny (norm_nonneg _) ho0)
    have h2 : ‖((a', 0, a' (f θ T (y T))) : (X →L[ℝ] ℝ) × (P →L[ℝ] ℝ) × ℝ)‖ ≤ o + o * Mf := by
      rw [Prod.norm_def, Prod.norm_def]
      have := mul_nonneg ho0 hMf0
      refine max_le (by simp only; linarith) (max_le (by simp only [norm_zero]; linarith) (by simp only; linarith))
    linarith
  have htake : (ω.take (rest.length + 1)).sum + o = ω.sum := by
    have hωl : ω.length = rest.length + 1 + 1 := by rw [← hω, List.length_map, hwlen, hlen]
    have h1 : ω.take (rest.length + 1 + 1) = ω := by rw [← hωl]; exact List.take_length
    conv_rhs => rw [← h1, List.take_add_one, hoo]
    simp
  have hsmall : Real.exp (L * (T - t0)) * (κ * h ^ p * Q + C2 * h ^ p * (T - t0)) = E * h ^ p := by
    rw [← hE]
    ring
  obtain ⟨S', Z', e', hl0, hl1, hl2, hfin⟩ := adjointLoop_near (C := C2) (L := L) (δ := δ2) (ε := κ * h ^ p) (p := p) hf hy
    (fun t ht => (hRy t ht).trans (le_max_left _ _)) hB0 hgrow hC2 hL (by positivity) hh0 hh2 H2 (le_max_right _ _) (by
      rw [hsmall]
      have : E * h ^ p ≤ E * h := mul_le_mul_of_nonneg_left hhp hE0
      linarith) hψ hsolve hmono hle hgap (gt := List.replicate (rest.length + 2) 0)
    (fun j hj => by rw [List.getElem?_replicate, if_pos (by omega)]) hω0 hcot (rest.length + 1)
    (xT, a, 0, a (f θ T xT)) (y T, a', 0, a' (f θ T (y T))) ((1 + Mf) * (1 + o)) (a (f θ T xT)) (a' (f θ T (y T))) T hlastT rfl
    (by simpa using hZ0) (by simpa using hS0) (by
      rw [← hQ]
      have h1 := take_sum_nonneg hω0 (rest.length + 1)
      have h2 : (1 + Mf) * (1 + o) + (ω.take (rest.length + 1)).sum ≤ (1 + Mf) * (1 + ω.sum) := by
        have h3 := mul_nonneg hMf0 h1
        have h4 : (1 + Mf) * (1 + ω.sum) = (1 + Mf) * (1 + o) + (ω.take (rest.length + 1)).sum +
            Mf * (ω.take (rest.length + 1)).sum := by
          rw [← htake]
          ring
        linarith
      exact h2.trans (mul_le_mul_of_nonneg_left (by linarith) (by linarith)))
  rw [hsmall] at hfin
  have hgl1 : gx.getLast? = some a := by
    rw [List.getLast?_eq_getElem?, ← hgx, List.length_zipWith, List.length_zip, hsl, hwlen, min_self, min_self, hlen, hgx]
    exact hga
  have hgl2 : gx'.getLast? = some a' := by
    rw [List.getLast?_eq_getElem?, ← hgx', List.length_zipWith, hwlen, min_self, hlen, hgx']
    exact hga'
  have hsl1 : sol.getLast? = some xT := by
    rw [List.getLast?_eq_getElem?, hsl, hlen]
    exact hxT
  have hsl2 : (ts.map y).getLast? = some (y T) := by rw [List.getLast?_map, hlast]; rfl
  have hμ : μ' = Z'.2.2.1 ∧ lam' = Z'.2.1 := by
    unfold adjointBackward at hrun'
    simp only [getLastItem, hsl2, hgl2, hlast, pure_bind, hlen, Nat.add_succ_sub_one] at hrun'
    change (adjointLoop solve (smoothAdjoint f θ dg) ts _ _ (rest.length + 1)
      (y T, a', 0, a' (f θ T (y T))) (a' (f θ T (y T))) >>= _) = _ at hrun'
    rw [hl2] at hrun'
    have := Except.ok.inj hrun'
    simp only [Prod.mk.injEq] at this
    exact ⟨this.1.symm, this.2.1.symm⟩
  have hy0' : y t0 = x0 := hy0
  rw [hy0'] at htraj hfwd
  refine ⟨μ'.coprod lam', φ, ψ, sol, xT, gx, a, S', hD, hφ, htraj, hsl1, hgx.symm, hgl1, hψ, hl0, ?_,
    fun hsep => ⟨hfwd hsep, ?_⟩⟩
  · rw [hμ.1, hμ.2]
    refine (coprod_sub_le S' Z').trans ?_
    linarith
  · obtain ⟨e, hl1⟩ := hl1 hsep
    refine ⟨e, a (f θ T xT), ?_⟩
    unfold adjointBackward
    simp only [getLastItem, hsl1, hgl1, hlast, pure_bind, hlen, Nat.add_succ_sub_one]
    change (adjointLoop (fun g S ts => odeintFixed g S ts solverAdj [] argsAdj) (smoothAdjoint f θ dg) ts _ _ (rest.length + 1)
      (xT, a, 0, a (f θ T xT)) (a (f θ T xT)) >>= _) = _
    rw [hl1]
    rfl

/-- **C109.** Losses over all outputs and integral losses: with `euler` in both passes the gradient with respect to
parameters and initial state is computed with first order, uniformly in the number of outputs. -/
theorem C109_euler {f : P → ℝ → X → X} (hf : ContDiff ℝ 2 fun q : P × ℝ × X => f q.1 q.2.1 q.2.2) {θ : P} {x0 : X}
    {dg : Option (ℝ → X → (X →L[ℝ] ℝ))} (hdg : ContDiff ℝ 1 fun p : ℝ × X => lossCot dg p.1 p.2)
    {G : ℝ → X → ℝ} (hGc : Continuous fun p : ℝ × X => G p.1 p.2) (hG : ∀ t x, HasFDerivAt (G t) (lossCot dg t x) x)
    {ℓ : ℝ → X → ℝ} (hℓd : ∀ t, Differentiable ℝ (ℓ t)) (hℓ : ContDiff ℝ 1 fun p : ℝ × X => fderiv ℝ (ℓ p.1) p.2) {t0 T : ℝ}
    (htT : t0 < T) (Y : P × X → ℝ → X) (hY : ∀ᶠ q in 𝓝 (θ, x0), Y q t0 = q.2 ∧ SolvesOn (f q.1) (Y q) t0 T)
    (args : A) (argsAdj : A') :
    CheckpointGradientOrder 1 (eulerSolver (Except PyErr) ℝ X A) args (eulerSolver (Except PyErr) ℝ (AdjS X P) A') argsAdj
      f θ dg G ℓ x0 t0 T Y := by
  have hf1 : ContDiff ℝ 1 fun q : P × ℝ × X => f q.1 q.2.1 q.2.2 := hf.of_le (by norm_num)
  have h := contDiff_adjointDynamics (f := f) (dg := dg) (n := 1) (by exact_mod_cast hf) θ (by exact_mod_cast hdg)
  refine checkpoint_gradients one_ne_zero hf1 hdg.continuous hGc hG hℓd hℓ htT Y hY ?_ (euler_steppedBy _ argsAdj)
    fun R => euler_one_step ?_ _ _ R
  · exact (C106_euler (f θ) (hf1.comp (by fun_prop : ContDiff ℝ 1 fun p : ℝ × X => ((θ, p.1, p.2) : P × ℝ × X))) _ t0 T
      hY.self_of_nhds.2 args).converges
  · exact (h.comp (by fun_prop : ContDiff ℝ (1 : ℕ) fun p : ℝ × AdjS X P => ((-p.1, p.2) : ℝ × AdjS X P))).neg

/-- **C109.** With `midpoint` in both passes the gradient is computed with second order. -/
theorem C109_midpoint {f : P → ℝ → X → X} (hf : ContDiff ℝ 3 fun q : P × ℝ × X => f q.1 q.2.1 q.2.2) {θ : P} {x0 : X}
    {dg : Option (ℝ → X → (X →L[ℝ] ℝ))} (hdg : ContDiff ℝ 2 fun p : ℝ × X => lossCot dg p.1 p.2)
    {G : ℝ → X → ℝ} (hGc : Continuous fun p : ℝ × X => G p.1 p.2) (hG : ∀ t x, HasFDerivAt (G t) (lossCot dg t x) x)
    {ℓ : ℝ → X → ℝ} (hℓd : ∀ t, Differentiable ℝ (ℓ t)) (hℓ : ContDiff ℝ 1 fun p : ℝ × X => fderiv ℝ (ℓ p.1) p.2) {t0 T : ℝ}
    (htT : t0 < T) (Y : P × X → ℝ → X) (hY : ∀ᶠ q in 𝓝 (θ, x0), Y q t0 = q.2 ∧ SolvesOn (f q.1) (Y q) t0 T)
    (args : A) (argsAdj : A') :
    CheckpointGradientOrder 2 (midpointSolver (Except PyErr) ℝ X A) args (midpointSolver (Except PyErr) ℝ (AdjS X P) A')
      argsAdj f θ dg G ℓ x0 t0 T Y := by
  have hf1 : ContDiff ℝ 1 fun q : P × ℝ × X => f q.1 q.2.1 q.2.2 := hf.of_le (by norm_num)
  have hf2 : ContDiff ℝ 2 fun q : P × ℝ × X => f q.1 q.2.1 q.2.2 := hf.of_le (by norm_num)
  have h := contDiff_adjointDynamics (f := f) (dg := dg) (n := 2) (by exact_mod_cast hf) θ (by exact_mod_cast hdg)
  refine checkpoint_gradients two_ne_zero hf1 hdg.continuous hGc hG hℓd hℓ htT Y hY ?_ (midpoint_steppedBy _ argsAdj)
    fun R => midpoint_one_step (f := fun s w => -adjointDynamics (smoothAdjoint f θ dg) (-s) w) ?_ _ _ R
  · exact (C106_midpoint (f θ) (hf2.comp (by fun_prop : ContDiff ℝ 2 fun p : ℝ × X => ((θ, p.1, p.2) : P × ℝ × X))) _ t0 T
      hY.self_of_nhds.2 args).converges
  · exact (h.comp (by fun_prop : ContDiff ℝ (2 : ℕ) fun p : ℝ × AdjS X P => ((-p.1, p.2) : ℝ × AdjS X P))).neg

/-- **C109 (partial: autonomous fields and integral losses).** With `rk4` in both passes the gradient is computed with
fourth order. Missing: time dependence, for which `rk4` is not of fourth order (`C82_rk4_time_refuted`). The losses `ℓ` on
the outputs may depend on time. -/
theorem C109_rk4_partial {F : P → X → X} (hF : ContDiff ℝ 5 fun q : P × X => F q.1 q.2) {θ : P} {x0 : X}
    {dg : Option (X → (X →L[ℝ] ℝ))} (hdg : ContDiff ℝ 4 fun x : X => lossCot (dg.map fun g _ x => g x) 0 x)
    {G : X → ℝ} (hG : ∀ x, HasFDerivAt G (lossCot (dg.map fun g _ x => g x) 0 x) x)
    {ℓ : ℝ → X → ℝ} (hℓd : ∀ t, Differentiable ℝ (ℓ t)) (hℓ : ContDiff ℝ 1 fun p : ℝ × X => fderiv ℝ (ℓ p.1) p.2) {t0 T : ℝ}
    (htT : t0 < T) (Y : P × X → ℝ → X) (hY : ∀ᶠ q in 𝓝 (θ, x0), Y q t0 = q.2 ∧ SolvesOn (fun _ => F q.1) (Y q) t0 T)
    (args : A) (argsAdj : A') :
    CheckpointGradientOrder 4 (rk4Solver (Except PyErr) ℝ X A) args (rk4Solver (Except PyErr) ℝ (AdjS X P) A') argsAdj
      (fun θ _ x => F θ x) θ (dg.map fun g _ x => g x) (fun _ => G) ℓ x0 t0 T Y := by
  have hcot : ∀ t x, lossCot (dg.map fun g (_ : ℝ) x => g x) t x = lossCot (dg.map fun g (_ : ℝ) x => g x) 0 x := by
    intro t x
    cases dg <;> rfl
  have hf : ContDiff ℝ 5 fun q : P × ℝ × X => F q.1 q.2.2 :=
    hF.comp (by fun_prop : ContDiff ℝ 5 fun q : P × ℝ × X => ((q.1, q.2.2) : P × X))
  have hdg' : ContDiff ℝ 4 fun p : ℝ × X => lossCot (dg.map fun g (_ : ℝ) x => g x) p.1 p.2 := by
    simp only [hcot]
    exact hdg.comp contDiff_snd
  have hGc : Continuous G := continuous_iff_continuousAt.2 fun x => (hG x).continuousAt
  have h := contDiff_adjointDynamics (f := fun θ _ x => F θ x) (n := 4) (by exact_mod_cast hf) θ (by exact_mod_cast hdg')
  have e : ∀ t w, adjointDynamics (smoothAdjoint (fun θ (_ : ℝ) x => F θ x) θ (dg.map fun g (_ : ℝ) x => g x)) t w =
      adjointDynamics (smoothAdjoint (fun θ (_ : ℝ) x => F θ x) θ (dg.map fun g (_ : ℝ) x => g x)) 0 w := by
    intro t w
    rw [adjointDynamics_smooth, adjointDynamics_smooth, hcot]
    simp
  refine checkpoint_gradients (f := fun θ _ x => F θ x) (G := fun _ => G) four_ne_zero (hf.of_le (by norm_num))
    hdg'.continuous (hGc.comp continuous_snd) (fun t x => by rw [hcot]; exact hG x) hℓd hℓ htT Y hY ?_
    (rk4_steppedBy _ argsAdj) fun R => ?_
  · refine (C106_rk4_partial (F θ) ?_ _ t0 T hY.self_of_nhds.2 args).converges
    exact (hF.of_le (by norm_num)).comp (by fun_prop : ContDiff ℝ 4 fun x : X => ((θ, x) : P × X))
  · simp only [fun s w => e (-s) w]
    exact rk4_one_step (F := fun w => -adjointDynamics (smoothAdjoint (fun θ (_ : ℝ) x => F θ x) θ
        (dg.map fun g (_ : ℝ) x => g x)) 0 w)
      (h.comp (by fun_prop : ContDiff ℝ (4 : ℕ) fun w : AdjS X P => ((0, w) : ℝ × AdjS X P))).neg _ _ R

/-- Non-vacuity: for `x' = θ x`, `θ = 2`, `x(0) = 1`, the gradient of a weighted sum of the squares of all outputs on `[0, 1]`
is computed with fourth order by `rk4`. -/
example : CheckpointGradientOrder 4 (rk4Solver (Except PyErr) ℝ ℝ Unit) () (rk4Solver (Except PyErr) ℝ (AdjS ℝ ℝ) Unit) ()
    (fun θ _ x => θ * x) 2 none (fun _ _ => 0) (fun _ x => x ^ 2) 1 0 1 (fun q t => Real.exp (q.1 * t) * q.2) := by
  refine C109_rk4_partial (F := fun θ x => θ * x) (dg := none) (G := fun _ => 0) (ℓ := fun _ x => x ^ 2) (by fun_prop) ?_ ?_
    (by fun_prop) ?_ one_pos (fun q t => Real.exp (q.1 * t) * q.2) ?_ () ()
  · simpa [lossCot] using contDiff_const
  · intro x
    exact hasFDerivAt_const _ _
  · have h2 : ContDiff ℝ 2 fun x : ℝ => x ^ 2 := by fun_prop
    exact (h2.fderiv_right (m := 1) (by norm_num)).comp contDiff_snd
  · refine Filter.Eventually.of_forall fun q => ⟨by simp, fun t _ => ?_⟩
    have h1 : HasDerivAt (fun t : ℝ => q.1 * t) q.1 t := by simpa using (hasDerivAt_id t).const_mul q.1
    exact ((h1.exp.mul_const q.2).congr_deriv (by ring)).hasDerivWithinAt

end Torchdyn
