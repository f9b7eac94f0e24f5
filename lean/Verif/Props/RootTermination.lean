import Verif.Props.RootCall

/-!
Property C128: when `root_find` stops by its termination condition.
-/

set_option linter.unusedSectionVars false
set_option linter.unusedSimpArgs false

namespace Torchdyn

variable {β ι : Type} [Fintype β] [Fintype ι]

theorem norm_toVec (v : ι → ℝ) : ‖toVec v‖ = Real.sqrt (∑ i, v i ^ 2) := by
  rw [EuclideanSpace.norm_eq]
  simp [toVec_apply]

/-- A loop whose tolerance test holds from iteration `N` on stops there at the latest. -/
theorem rootLoop_stops {ο : Type} [Fintype ο] {cfg : RootCfg} {method : RootMethod} {g : Batch β ι → Batch β ο} {fuel : ℕ}
    (hm : IsBroyden method) (hf : 7 ≤ fuel) (α : ℝ) (F : β → ℝ) (N : ℕ) (Inv : ℕ → Batch β ι → BatchMat β ι ο → Prop)
    (hstep : ∀ (n : ℕ) (z z' : Batch β ι) (J : BatchMat β ι ο), Inv n z J →
      z' = (fun b i => z b i - α * ∑ o, g z b o * J b i o) →
      Inv (n + 1) z' (updateOf method (fun b o => g z' b o - g z b o) (fun b i => z' b i - z b i) J) ∧
        (N ≤ n + 1 → WithinTolerances cfg g F z' (fun b i => ∑ o, g z b o * J b i o))) (left : ℕ) :
    ∀ s : RootState β ι ο, s.alpha = α → s.geval = g s.z → s.f0Norm = some F → Inv s.iteration s.z s.Jinv →
      s.iteration < N → N ≤ s.iteration + left →
      ∃ s', rootLoop cfg method .none g fuel left s = .ok (some s') ∧ s'.terminated = true ∧ s'.iteration ≤ N := by
  induction left with
  | zero => exact fun s _ _ _ _ h1 h2 => absurd (h1.trans_le h2) (lt_irrefl _)
  | succ left ih =>
    intro s e1 e2 e3 e4 hlt hle
    obtain ⟨s1, h1, h2, h3, h4, h5, h6, h7, h8, h9⟩ := rootLoop_succ (cfg := cfg) (search := .none) (g := g) hm hf left s
    have ha : s1.alpha = α := by
      have : some s.alpha = some s1.alpha := h6
      rw [← Option.some.inj this, e1]
    obtain ⟨k1, k2⟩ := hstep s.iteration s.z s1.z s.Jinv e4 (by rw [h3, h2, e1, e2])
    rw [e3, Option.getD_some] at h7 h8
    have hinv : Inv s1.iteration s1.z s1.Jinv := by
      rw [h1, h5, h4, e2]
      exact k1
    rw [h9]
    by_cases ht : s1.terminated = true
    · rw [if_pos ht]
      exact ⟨s1, rfl, ht, by omega⟩
    · rw [if_neg ht]
      have hN : s1.iteration < N := by
        by_contra hN
        refine ht (h8.2 ?_)
        rw [h2, e2]
        exact k2 (by omega)
      exact ih s1 ha h4 h7 hinv hN (by omega)

variable [DecidableEq ι]

/-- Near a regular root the residual bounds the distance, and the distance the residual. -/
theorem RegularRoot.bilipschitz {G : EuclideanSpace ℝ ι → EuclideanSpace ℝ ι}
    {G' : EuclideanSpace ℝ ι → EuclideanSpace ℝ ι →L[ℝ] EuclideanSpace ℝ ι} {A : EuclideanSpace ℝ ι →L[ℝ] EuclideanSpace ℝ ι}
    {zs : EuclideanSpace ℝ ι} {ρ γ δ : ℝ} (h : RegularRoot G G' A zs ρ γ) (hγ : 0 ≤ γ) (hδ : δ ≤ ρ)
    (hs : ‖A‖ * (γ * δ) ≤ 1 / 4) {z : EuclideanSpace ℝ ι} (hz : ‖z - zs‖ ≤ δ) :
    ‖G z‖ ≤ (‖G' zs‖ + γ * δ) * ‖z - zs‖ ∧ ‖z - zs‖ ≤ 4 / 3 * ‖A‖ * ‖G z‖ := by
  have h1 := h.residual hγ (hz.trans hδ)
  have h2 : γ * ‖z - zs‖ * ‖z - zs‖ ≤ γ * δ * ‖z - zs‖ :=
    mul_le_mul_of_nonneg_right (mul_le_mul_of_nonneg_left hz hγ) (norm_nonneg _)
  constructor
  · have h3 : ‖G z‖ ≤ ‖G z - G' zs (z - zs)‖ + ‖G' zs (z - zs)‖ := by
      have := norm_add_le (G z - G' zs (z - zs)) (G' zs (z - zs))
      rwa [sub_add_cancel] at this
    have h4 := (G' zs).le_opNorm (z - zs)
    rw [add_mul]
    linarith
  · have h3 : z - zs = A (G z) - A (G z - G' zs (z - zs)) := by
      rw [← map_sub, sub_sub_cancel, h.left_inv]
    have h4 : ‖z - zs‖ ≤ ‖A‖ * ‖G z‖ + ‖A‖ * (γ * δ * ‖z - zs‖) := by
      nth_rw 1 [h3]
      refine (norm_sub_le _ _).trans (add_le_add (A.le_opNorm _) ((A.le_opNorm _).trans ?_))
      exact mul_le_mul_of_nonneg_left (h1.trans h2) (norm_nonneg _)
    have h5 : ‖A‖ * (γ * δ * ‖z - zs‖) ≤ 1 / 4 * ‖z - zs‖ := by
      rw [← mul_assoc]
      exact mul_le_mul_of_nonneg_right hs (norm_nonneg _)
    linarith

/-- **C128 (roots away from the origin).** Suppose that for every sample the row function has a root with invertible derivative
that is not the origin. Then from all starting points close enough to these roots `root_find` without line search stops by its
termination condition, for all positive tolerances, within a number of iterations that depends on the tolerances but not on
the starting point, provided `maxiters` allows as many. How close does not depend on the tolerances.

Missing: roots at the origin, for which the condition is never met (`C128_origin_refuted`). -/
theorem C128_terminates_partial [Nonempty β] {G : (ι → ℝ) → (ι → ℝ)}
    {G' : EuclideanSpace ℝ ι → EuclideanSpace ℝ ι →L[ℝ] EuclideanSpace ℝ ι}
    {A : β → EuclideanSpace ℝ ι →L[ℝ] EuclideanSpace ℝ ι} {zs : β → EuclideanSpace ℝ ι} {ρ γ : β → ℝ} {α : ℝ}
    (hρ : ∀ b, 0 < ρ b) (hγ : ∀ b, 0 ≤ γ b) (hroot : ∀ b, RegularRoot (rowMap G) G' (A b) (zs b) (ρ b) (γ b))
    (hzs : ∀ b, zs b ≠ 0) (hα0 : 0 < α) (hα1 : α ≤ 1) :
    ∃ δ : β → ℝ, (∀ b, 0 < δ b) ∧ ∀ fTol fRtol xTol xRtol : ℝ, 0 < fTol → 0 < fRtol → 0 < xTol → 0 < xRtol →
      ∃ N : ℕ, ∀ (maxiters : ℕ) (method : String), N ≤ maxiters + 1 → method = "broyden" ∨ method = "broyden_fast" →
      ∀ (z : Batch β ι) (fuel : ℕ), 7 ≤ fuel → (∀ b, ‖toVec (z b) - zs b‖ ≤ δ b) →
      ∃ s, rootFindRows ⟨fTol, fRtol, xTol, xRtol, maxiters⟩ method "none" G z α fuel = .ok (some s) ∧
        s.terminated = true ∧ s.iteration ≤ N := by
  set g : Batch β ι → Batch β ι := fun z b => G (z b) with hg
  have hloc := fun b => local_invariant (g := g) b (hρ b) (hγ b) (hroot b) (fun _ => rfl) hα0 hα1
  choose δ0 hδ0 hδρ hδA H using hloc
  set δ : β → ℝ := fun b => min (δ0 b) (‖zs b‖ / 2) with hδ
  have hzpos : ∀ b, 0 < ‖zs b‖ := fun b => norm_pos_iff.2 (hzs b)
  refine ⟨δ, fun b => lt_min (hδ0 b) (half_pos (hzpos b)), ?_⟩
  intro fTol fRtol xTol xRtol h1 h2 h3 h4
  set q := 1 - α / 2 with hq
  have hq0 : 0 ≤ q := by rw [hq]; linarith
  have hq1 : q < 1 := by rw [hq]; linarith
  set L : β → ℝ := fun b => ‖G' (zs b)‖ + γ b * δ0 b with hL
  have hL0 : ∀ b, 0 ≤ L b := fun b => add_nonneg (norm_nonneg _) (mul_nonneg (hγ b) (hδ0 b).le)
  set K : β → ℝ := fun b => L b * δ0 b + L b * (4 / 3 * ‖A b‖) + 2 / α * δ0 b + 1 with hK
  have hK0 : ∀ b, 0 < K b := fun b => by
    have := hL0 b
    have := (hδ0 b).le
    positivity
  set τ : β → ℝ := fun b => min (min fTol fRtol) (min xTol (xRtol * (‖zs b‖ / 2))) with hτ
  have hτ0 : ∀ b, 0 < τ b := fun b => lt_min (lt_min h1 h2) (lt_min h3 (mul_pos h4 (half_pos (hzpos b))))
  have hex : ∀ b, ∃ n, q ^ n * K b ≤ τ b := by
    intro b
    obtain ⟨n, hn⟩ := exists_pow_lt_of_lt_one (div_pos (hτ0 b) (hK0 b)) hq1
    exact ⟨n, ((lt_div_iff₀ (hK0 b)).1 hn).le⟩
  choose M hM using hex
  set N := Finset.univ.sup M + 2 with hN
  have hMN : ∀ b n, N ≤ n + 2 → q ^ n * K b ≤ τ b := by
    intro b n hn
    have hb : M b ≤ Finset.univ.sup M := Finset.le_sup (Finset.mem_univ b)
    exact (mul_le_mul_of_nonneg_right (pow_le_pow_of_le_one hq0 hq1.le (by omega : M b ≤ n)) (hK0 b).le).trans (hM b)
  refine ⟨N, ?_⟩
  intro maxiters method hmax hmethod z fuel hf hz
  obtain ⟨p, hp, hb⟩ : ∃ p, (method, p) ∈ rootSolverDict ∧ IsBroyden p := by
    rcases hmethod with rfl | rfl
    · exact ⟨.broyden, by simp [rootSolverDict], Or.inl rfl⟩
    · exact ⟨.broydenFast, by simp [rootSolverDict], Or.inr rfl⟩
  have hq' : ("none", SearchMethod.none) ∈ searchMethods := by simp [searchMethods]
  rw [rootFindRows_eq hp hq', rootFind_names hp hq']
  have hz0 : ∀ b, ‖toVec (z b) - zs b‖ ≤ δ0 b := fun b => (hz b).trans (min_le_left _ _)
  have hJ0 : ∀ b x, toOp (initialInverse G z b) (G' (toVec (z b)) x) = x := by
    intro b x
    refine initialInverse_near (hroot b) ((hz0 b).trans (hδρ b)) ?_ x
    have : ‖A b‖ * (γ b * ‖toVec (z b) - zs b‖) ≤ ‖A b‖ * (γ b * δ0 b) :=
      mul_le_mul_of_nonneg_left (mul_le_mul_of_nonneg_left (hz0 b) (hγ b)) (norm_nonneg _)
    linarith [hδA b]
  have HI := fun b => H b p hb (initialInverse G z) z (hz0 b) (hJ0 b)
  choose Inv i0 istep using HI
  set cfg : RootCfg := ⟨fTol, fRtol, xTol, xRtol, maxiters⟩ with hcfg
  set s0 : RootState β ι ι := ⟨0, z, fun _ _ => 0, g z, initialInverse G z, α, none, false⟩ with hs0
  change ∃ s, rootLoop cfg p .none g fuel (maxiters + 1) s0 = .ok (some s) ∧ s.terminated = true ∧ s.iteration ≤ N
  obtain ⟨s1, j1, j2, j3, j4, j5, j6, j7, j8, j9⟩ :=
    rootLoop_succ (cfg := cfg) (search := .none) (g := g) hb hf maxiters s0
  rw [j9]
  by_cases ht : s1.terminated = true
  · rw [if_pos ht]
    refine ⟨s1, rfl, ht, ?_⟩
    rw [j1]
    change 0 + 1 ≤ N
    omega
  rw [if_neg ht]
  have ha : s1.alpha = α := by
    have : some s0.alpha = some s1.alpha := j6
    rw [← Option.some.inj this]
  -- after the first step
  have hs1 : ∀ b, Inv b 1 (s1.z b) (s1.Jinv b) ∧ ‖toVec (s1.z b) - zs b‖ ≤ ‖toVec (z b) - zs b‖ := by
    intro b
    obtain ⟨l1, _, l3⟩ := istep b 0 z s1.z (initialInverse G z) (i0 b) (by rw [j3, j2])
    refine ⟨?_, l3.trans (mul_le_of_le_one_left (norm_nonneg _) hq1.le)⟩
    rw [j5, j4]
    exact l1
  set E1 : β → ℝ := fun b => ‖toVec (s1.z b) - zs b‖ with hE1
  set F : β → ℝ := rowNorm (g s1.z) with hF
  have hE1δ : ∀ b, E1 b ≤ δ b := fun b => (hs1 b).2.trans (hz b)
  have hE10 : ∀ b, E1 b ≤ δ0 b := fun b => (hE1δ b).trans (min_le_left _ _)
  have hrow : ∀ (y : Batch β ι) b, rowNorm (g y) b = ‖rowMap G (toVec (y b))‖ := fun y b => (norm_toVec (g y b)).symm
  have hE1F : ∀ b, E1 b ≤ 4 / 3 * ‖A b‖ * F b := by
    intro b
    rw [hF, hrow]
    exact ((hroot b).bilipschitz (hγ b) (hδρ b) (hδA b) (hE10 b)).2
  refine rootLoop_stops hb hf α F N
    (fun n y J => 1 ≤ n ∧ ∀ b, Inv b n (y b) (J b) ∧ ‖toVec (y b) - zs b‖ ≤ q ^ (n - 1) * E1 b) ?_ maxiters s1 ha j4
    (by rw [j7]; rfl) ?_ (by rw [j1]; change 0 + 1 < N; omega) (by rw [j1]; change N ≤ 0 + 1 + maxiters; omega)
  · rintro n y y' J ⟨hn, hinv⟩ hy'
    have hst := fun b => istep b n y y' J (hinv b).1 hy'
    have he' : ∀ b, ‖toVec (y' b) - zs b‖ ≤ q ^ n * E1 b := by
      intro b
      obtain ⟨_, _, l3⟩ := hst b
      refine l3.trans ((mul_le_mul_of_nonneg_left (hinv b).2 hq0).trans (le_of_eq ?_))
      rw [← mul_assoc, ← pow_succ', Nat.sub_add_cancel hn]
    refine ⟨⟨by omega, fun b => ⟨(hst b).1, he' b⟩⟩, fun hNn b => ?_⟩
    have hE0 : 0 ≤ E1 b := norm_nonneg _
    have hpow : q ^ n ≤ q ^ (n - 1) := pow_le_pow_of_le_one hq0 hq1.le (Nat.sub_le _ _)
    have hp0 : 0 ≤ q ^ (n - 1) := pow_nonneg hq0 _
    have hx : q ^ (n - 1) * K b ≤ τ b := hMN b (n - 1) (by omega)
    have heδ : ‖toVec (y' b) - zs b‖ ≤ E1 b := (he' b).trans (mul_le_of_le_one_left hE0 (pow_le_one₀ hq0 hq1.le))
    have hle : ‖toVec (y' b) - zs b‖ ≤ q ^ (n - 1) * E1 b := (he' b).trans (mul_le_mul_of_nonneg_right hpow hE0)
    have hG1 : ‖rowMap G (toVec (y' b))‖ ≤ L b * (q ^ (n - 1) * E1 b) :=
      ((hroot b).bilipschitz (hγ b) (hδρ b) (hδA b) (heδ.trans (hE10 b))).1.trans (mul_le_mul_of_nonneg_left hle (hL0 b))
    have hd0 := (hδ0 b).le
    have hpart : ∀ t : ℝ, t ≤ K b → q ^ (n - 1) * t ≤ τ b := fun t ht => (mul_le_mul_of_nonneg_left ht hp0).trans hx
    have hLd : 0 ≤ L b * δ0 b := mul_nonneg (hL0 b) hd0
    have hLA : 0 ≤ L b * (4 / 3 * ‖A b‖) := mul_nonneg (hL0 b) (by positivity)
    have hαd : 0 ≤ 2 / α * δ0 b := by positivity
    have hgn : Real.sqrt (∑ o, g y' b o ^ 2) = ‖rowMap G (toVec (y' b))‖ := hrow y' b
    have hdz : Real.sqrt (∑ i, (∑ o, g y b o * J b i o) ^ 2) ≤ q ^ (n - 1) * (2 / α * δ0 b) := by
      have e1 : toVec (fun i => ∑ o, g y b o * J b i o) = (1 / α) • ((toVec (y b) - zs b) - (toVec (y' b) - zs b)) := by
        ext i
        rw [sub_sub_sub_cancel_right, PiLp.smul_apply, PiLp.sub_apply, toVec_apply, toVec_apply, toVec_apply, hy', smul_eq_mul]
        field_simp
        ring
      rw [← norm_toVec, e1, norm_smul, Real.norm_eq_abs, abs_of_pos (by positivity)]
      have := norm_sub_le (toVec (y b) - zs b) (toVec (y' b) - zs b)
      have k1 := (hinv b).2
      have k2 : q ^ (n - 1) * E1 b ≤ q ^ (n - 1) * δ0 b := mul_le_mul_of_nonneg_left (hE10 b) hp0
      calc 1 / α * ‖toVec (y b) - zs b - (toVec (y' b) - zs b)‖ ≤ 1 / α * (2 * (q ^ (n - 1) * δ0 b)) :=
            mul_le_mul_of_nonneg_left (by linarith) (by positivity)
        _ = _ := by ring
    refine ⟨?_, ?_, ?_, ?_⟩
    · rw [hgn]
      refine hG1.trans (le_trans ?_ ((hpart (L b * δ0 b) (by simp only [hK]; linarith)).trans
        ((min_le_left _ _).trans (min_le_left _ _))))
      calc L b * (q ^ (n - 1) * E1 b) = q ^ (n - 1) * (L b * E1 b) := by ring
        _ ≤ q ^ (n - 1) * (L b * δ0 b) := mul_le_mul_of_nonneg_left (mul_le_mul_of_nonneg_left (hE10 b) (hL0 b)) hp0
    · rw [hgn, div_le_iff₀ h2]
      have hF0 : 0 ≤ F b := Real.sqrt_nonneg _
      have k := (hpart (L b * (4 / 3 * ‖A b‖)) (by simp only [hK]; linarith)).trans ((min_le_left _ _).trans (min_le_right _ _))
      calc ‖rowMap G (toVec (y' b))‖ ≤ L b * (q ^ (n - 1) * E1 b) := hG1
        _ = q ^ (n - 1) * L b * E1 b := by ring
        _ ≤ q ^ (n - 1) * L b * (4 / 3 * ‖A b‖ * F b) := mul_le_mul_of_nonneg_left (hE1F b) (mul_nonneg hp0 (hL0 b))
        _ = F b * (q ^ (n - 1) * (L b * (4 / 3 * ‖A b‖))) := by ring
        _ ≤ F b * fRtol := mul_le_mul_of_nonneg_left k hF0
    · exact hdz.trans ((hpart _ (by simp only [hK]; linarith)).trans ((min_le_right _ _).trans (min_le_left _ _)))
    · rw [div_le_iff₀ h4, ← norm_toVec (y' b)]
      have k := hdz.trans ((hpart _ (by simp only [hK]; linarith)).trans ((min_le_right _ _).trans (min_le_right _ _)))
      have k2 : ‖zs b‖ / 2 ≤ ‖toVec (y' b)‖ := by
        have a1 : ‖zs b‖ ≤ ‖toVec (y' b)‖ + ‖toVec (y' b) - zs b‖ := by
          have := norm_sub_le (toVec (y' b)) (toVec (y' b) - zs b)
          rwa [sub_sub_cancel] at this
        have a2 : ‖toVec (y' b) - zs b‖ ≤ ‖zs b‖ / 2 := heδ.trans ((hE1δ b).trans (min_le_right _ _))
        linarith
      have := mul_le_mul_of_nonneg_left k2 h4.le
      change Real.sqrt (∑ i, (∑ o, g y b o * J b i o) ^ 2) ≤ ‖toVec (y' b)‖ * xRtol
      linarith
  · rw [j1]
    exact ⟨le_rfl, fun b => ⟨(hs1 b).1, by simp [hs0, hE1]⟩⟩

/-- Non-vacuity: the coupled quadratic residual with its root moved to `(1, 1)`, default step length and tolerances. -/
example : ∃ δ > 0, ∃ N : ℕ, ∀ z : Batch β (Fin 2), (∀ b, ‖toVec (z b) - toVec fun _ => 1‖ ≤ δ) → Nonempty β →
    ∃ s, rootFindRows ⟨1 / 10 ^ 2, 1 / 10, 1 / 10 ^ 2, 1, N⟩ "broyden" "none"
      (fun x i => (x i - 1) + ((x 0 - 1) ^ 2 + (x 1 - 1) ^ 2)) z (1 / 10) 7 = .ok (some s) ∧ s.terminated = true := by
  by_cases hβ : Nonempty β
  · set w : EuclideanSpace ℝ (Fin 2) := toVec fun _ => 1 with hw
    have hG : rowMap (fun (x : Fin 2 → ℝ) i => (x i - 1) + ((x 0 - 1) ^ 2 + (x 1 - 1) ^ 2)) = fun x => quadResidual w (x - w) := by
      funext x
      ext i
      simp [rowMap, quadResidual, hw, toVec, EuclideanSpace.norm_sq_eq]
    have hreg : RegularRoot (fun x => quadResidual w (x - w)) (fun x => quadDeriv w (x - w)) (ContinuousLinearMap.id ℝ _) w 1
        (2 * ‖w‖) := by
      have h := quadratic_regularRoot w
      refine ⟨by simp [h.root], fun x hx => ?_, fun x hx => ?_, fun x => by simpa using h.left_inv x,
        fun x => by simpa using h.right_inv x⟩
      · have hx' : x - w ∈ Metric.closedBall (0 : EuclideanSpace ℝ (Fin 2)) 1 := by
          simpa [dist_eq_norm] using hx
        have := (h.deriv (x - w) hx').comp x ((hasFDerivAt_id x).sub_const w)
        exact this
      · have hx' : x - w ∈ Metric.closedBall (0 : EuclideanSpace ℝ (Fin 2)) 1 := by
          simpa [dist_eq_norm] using hx
        simpa using h.lip (x - w) hx'
    have hw0 : w ≠ 0 := by
      intro h
      have : w 0 = 0 := by rw [h]; rfl
      simp [hw, toVec_apply] at this
    obtain ⟨δ, hδ, H⟩ := C128_terminates_partial (β := β) (G := fun (x : Fin 2 → ℝ) i => (x i - 1) + ((x 0 - 1) ^ 2 + (x 1 - 1) ^ 2))
      (ρ := fun _ => 1) (γ := fun _ => 2 * ‖w‖) (zs := fun _ => w) (α := 1 / 10) (fun _ => one_pos) (fun _ => by positivity)
      (fun _ => by rw [hG]; exact hreg) (fun _ => hw0) (by norm_num) (by norm_num)
    obtain ⟨N, hN⟩ := H (1 / 10 ^ 2) (1 / 10) (1 / 10 ^ 2) 1 (by norm_num) (by norm_num) (by norm_num) one_pos
    have hne : (Finset.univ : Finset β).Nonempty := Finset.univ_nonempty
    refine ⟨Finset.univ.inf' hne δ, (Finset.lt_inf'_iff hne).2 fun b _ => hδ b, N, fun z hz _ => ?_⟩
    obtain ⟨s, h1, h2, _⟩ := hN N "broyden" (Nat.le_succ N) (Or.inl rfl) z 7 le_rfl
      (fun b => (hz b).trans (Finset.inf'_le _ (Finset.mem_univ b)))
    exact ⟨s, h1, h2⟩
  · exact ⟨1, one_pos, 0, fun _ _ h => absurd h hβ⟩

/-! ### Roots at the origin -/

/-- A loop whose tolerance test never holds performs all its iterations. -/
theorem rootLoop_never {ο : Type} [Fintype ο] {cfg : RootCfg} {method : RootMethod} {g : Batch β ι → Batch β ο} {fuel : ℕ}
    (hm : IsBroyden method) (hf : 7 ≤ fuel) (α : ℝ) (Inv : ℕ → Batch β ι → BatchMat β ι ο → Prop)
    (hstep : ∀ (n : ℕ) (z z' : Batch β ι) (J : BatchMat β ι ο), Inv n z J →
      z' = (fun b i => z b i - α * ∑ o, g z b o * J b i o) →
      Inv (n + 1) z' (updateOf method (fun b o => g z' b o - g z b o) (fun b i => z' b i - z b i) J) ∧
        ∀ F, ¬ WithinTolerances cfg g F z' (fun b i => ∑ o, g z b o * J b i o)) (left : ℕ) :
    ∀ s : RootState β ι ο, s.alpha = α → s.geval = g s.z → s.terminated = false → Inv s.iteration s.z s.Jinv →
      ∃ s', rootLoop cfg method .none g fuel left s = .ok (some s') ∧ s'.terminated = false ∧
        s'.iteration = s.iteration + left ∧ Inv s'.iteration s'.z s'.Jinv := by
  induction left with
  | zero => exact fun s _ _ h1 h2 => ⟨s, rfl, h1, rfl, h2⟩
  | succ left ih =>
    intro s e1 e2 e3 e4
    obtain ⟨s1, h1, h2, h3, h4, h5, h6, h7, h8, h9⟩ := rootLoop_succ (cfg := cfg) (search := .none) (g := g) hm hf left s
    have ha : s1.alpha = α := by
      have : some s.alpha = some s1.alpha := h6
      rw [← Option.some.inj this, e1]
    obtain ⟨k1, k2⟩ := hstep s.iteration s.z s1.z s.Jinv e4 (by rw [h3, h2, e1, e2])
    have hinv : Inv s1.iteration s1.z s1.Jinv := by
      rw [h1, h5, h4, e2]
      exact k1
    have ht : ¬ s1.terminated = true := by
      intro ht
      refine k2 (s.f0Norm.getD (rowNorm (g s1.z))) ?_
      have := h8.1 ht
      rwa [h2, e2] at this
    rw [h9, if_neg ht]
    obtain ⟨s', l1, l2, l3, l4⟩ := ih s1 ha h4 (by simpa using ht) hinv
    exact ⟨s', l1, l2, by omega, l4⟩

open Matrix in
/-- **C128 is false for roots at the origin.** For every linear residual `A x` with only the root `0`, every starting point
other than the root, every step length below one and `x_rtol ≤ 1` (the defaults are `0.1` and `1`), the call without line
search never meets its termination condition, however small the residual, the step and the distance have become: the test
`‖dz‖ / x_rtol ≤ ‖z‖` compares the undamped direction, which is the previous point, with the new one. It always performs all
`maxiters + 1` iterations. -/
theorem C128_origin_refuted {ο : Type} [Fintype ο] {method : String} (hm : method = "broyden" ∨ method = "broyden_fast")
    (A : Matrix ο ι ℝ) (hA : ∀ x : ι → ℝ, (∀ o, ∑ i, A o i * x i = 0) → x = 0) (cfg : RootCfg) (hx0 : 0 < cfg.xRtol)
    (hx1 : cfg.xRtol ≤ 1) (z : Batch β ι) (b : β) (hz : z b ≠ 0) {α : ℝ} (hα0 : 0 < α) (hα1 : α < 1) (fuel : ℕ) (hf : 7 ≤ fuel) :
    ∃ s, rootFindRows cfg method "none" (fun x o => ∑ i, A o i * x i) z α fuel = .ok (some s) ∧ s.terminated = false ∧
      s.iteration = cfg.maxiters + 1 ∧ ∀ b i, s.z b i = (1 - α) ^ (cfg.maxiters + 1) * z b i := by
  have : Nonempty β := ⟨b⟩
  obtain ⟨p, hp, hb⟩ : ∃ p, (method, p) ∈ rootSolverDict ∧ IsBroyden p := by
    rcases hm with rfl | rfl
    · exact ⟨.broyden, by simp [rootSolverDict], Or.inl rfl⟩
    · exact ⟨.broydenFast, by simp [rootSolverDict], Or.inr rfl⟩
  have hq : ("none", SearchMethod.none) ∈ searchMethods := by simp [searchMethods]
  have hG : (fun (x : ι → ℝ) o => ∑ i, A o i * x i) = affineRow A 0 := by
    funext x o
    simp [affineRow, mulVec, dotProduct]
  rw [hG, rootFindRows_eq hp hq, rootFind_names hp hq]
  set P := pinverse A with hP
  have hpi : IsPinverse A P := pinverse_spec A
  have hPA : ∀ x : ι → ℝ, P.mulVec (A.mulVec x) = x := by
    intro x
    have h0 : P.mulVec (A.mulVec x) - x = 0 := by
      refine hA _ fun o => ?_
      change A.mulVec (P.mulVec (A.mulVec x) - x) o = 0
      rw [mulVec_sub, mulVec_mulVec, mulVec_mulVec, hpi.mpm, sub_self]
      rfl
    exact sub_eq_zero.1 h0
  have hJ : initialInverse (affineRow A 0) z = fun _ => P := by
    funext b
    rw [initialInverse, rowJacobian_affine]
  set g : Batch β ι → Batch β ο := fun z b => affineRow A 0 (z b) with hg
  have hdz : ∀ (y : Batch β ι) b i, ∑ o, g y b o * P i o = y b i := by
    intro y b i
    have e : ∑ o, g y b o * P i o = P.mulVec (A.mulVec (y b)) i := by
      simp only [hg, affineRow, add_zero]
      simp only [mulVec, dotProduct, mul_comm]
    rw [e, hPA]
  obtain ⟨s, k1, k2, k3, _, k4⟩ := rootLoop_never (cfg := cfg) (method := p) (g := g) hb hf α
    (fun n y J => J = (fun _ => P) ∧ ∀ b i, y b i = (1 - α) ^ n * z b i)
    (by
      rintro n y y' J ⟨rfl, hy⟩ hy'
      have hy1 : ∀ b i, y' b i = (1 - α) * y b i := by
        intro b i
        rw [hy']
        simp only [hdz]
        ring
      refine ⟨⟨?_, fun b i => ?_⟩, fun F hW => ?_⟩
      · apply updateOf_fixed
        intro b i
        have e := hdz (fun b i => y' b i - y b i) b i
        have e2 : ∀ o, g (fun b i => y' b i - y b i) b o = g y' b o - g y b o := by
          intro o
          simp only [hg, affineRow, add_zero]
          have : (fun i => y' b i - y b i) = y' b - y b := rfl
          rw [this, mulVec_sub]
          rfl
        simp only [e2, mul_comm] at e
        exact e.symm
      · rw [hy1, hy, pow_succ]
        ring
      · have h := (hW b).2.2.2
        simp only [hdz] at h
        have e1 : Real.sqrt (∑ i, y' b i ^ 2) = (1 - α) * Real.sqrt (∑ i, y b i ^ 2) := by
          have : ∑ i, y' b i ^ 2 = (1 - α) ^ 2 * ∑ i, y b i ^ 2 := by
            rw [Finset.mul_sum]
            exact Finset.sum_congr rfl fun i _ => by rw [hy1]; ring
          rw [this, Real.sqrt_mul (sq_nonneg _), Real.sqrt_sq (by linarith)]
        obtain ⟨i, hi⟩ := Function.ne_iff.1 hz
        have hpos : 0 < Real.sqrt (∑ i, y b i ^ 2) := by
          refine Real.sqrt_pos.2 (Finset.sum_pos' (fun _ _ => sq_nonneg _) ⟨i, Finset.mem_univ _, ?_⟩)
          rw [hy]
          have h1 : (1 - α) ^ n * z b i ≠ 0 := mul_ne_zero (pow_ne_zero _ (by linarith)) hi
          positivity
        rw [e1, div_le_iff₀ hx0] at h
        have h2 : (1 - α) * Real.sqrt (∑ i, y b i ^ 2) * cfg.xRtol ≤ (1 - α) * Real.sqrt (∑ i, y b i ^ 2) :=
          mul_le_of_le_one_right (mul_nonneg (by linarith) hpos.le) hx1
        have h3 : 0 < α * Real.sqrt (∑ i, y b i ^ 2) := mul_pos hα0 hpos
        linarith)
    (cfg.maxiters + 1) ⟨0, z, fun _ _ => 0, g z, initialInverse (affineRow A 0) z, α, none, false⟩ rfl rfl rfl
    ⟨hJ, fun b i => by simp⟩
  have k3' : s.iteration = cfg.maxiters + 1 := by simpa using k3
  exact ⟨s, k1, k2, k3', fun b i => by rw [k4, k3']⟩

/-- Non-vacuity: the residual `x` in two dimensions from `(1, 1)` with the default settings: 101 iterations, the point then
being `0.9^101 (1, 1)`, far within all tolerances. -/
example : ∃ s, rootFindRows defaultRootCfg "broyden" "none" (fun (x : Fin 2 → ℝ) o => ∑ i, (1 : Matrix (Fin 2) (Fin 2) ℝ) o i * x i)
    (fun (_ : Unit) _ => 1) (1 / 10) 7 = .ok (some s) ∧ s.terminated = false ∧ s.iteration = 101 := by
  obtain ⟨s, h1, h2, h3, _⟩ := C128_origin_refuted (β := Unit) (method := "broyden") (Or.inl rfl) (1 : Matrix (Fin 2) (Fin 2) ℝ)
    (fun x hx => by
      funext o
      simpa [Matrix.one_apply] using hx o) defaultRootCfg
    (by norm_num [defaultRootCfg]) (by norm_num [defaultRootCfg]) (fun _ _ => 1) () (fun h => by simpa using congrFun h 0)
    (α := 1 / 10) (by norm_num) (by norm_num) 7 le_rfl
  exact ⟨s, h1, h2, h3⟩

end Torchdyn
