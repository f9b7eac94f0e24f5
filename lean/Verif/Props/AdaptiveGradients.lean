import Verif.Props.AdaptiveAccuracy
import Verif.Props.AdjointNumerics
import Verif.Props.AdjointSeminorm
import Verif.Props.AdjointCheckpoints

/-!
Property C148: gradients computed by the adjoint method with `dopri5` in both passes.
-/

set_option linter.unusedSectionVars false
set_option linter.unusedSimpArgs false

namespace Torchdyn

open Spec Set
open scoped Topology

section interval

variable {ι A : Type} [Fintype ι]

/-- Accepted steps that start near a solution stay near it. -/
theorem reached_error_from {solver : Solver (Except PyErr) ℝ (ι → ℝ) A} {args : A} {f : ℝ → (ι → ℝ) → ι → ℝ} {y : ℝ → ι → ℝ}
    {sel : Finset ι} {atol rtol a b Λ η ρ : ℝ} (hΛ : 0 ≤ Λ) (hη : 0 ≤ η) {φ : (ι → ℝ) → ℝ → ℝ → ι → ℝ}
    (hstep : ∀ x t s k x' e st, solver.step (fun t x => .ok (f t x)) x t s none args = .ok (.four k x' e st) → x' = φ x t s)
    (hone : ∀ t s x, a ≤ t → 0 ≤ s → t + s ≤ b → ‖x - y t‖ ≤ ρ → ‖φ x t s - y (t + s)‖ ≤ (1 + Λ * s) * ‖x - y t‖ + η * s)
    {x : ι → ℝ} (hρ : (‖x - y a‖ + η * (b - a)) * Real.exp (Λ * (b - a)) ≤ ρ) {q : Point ι}
    (hq : Reached solver args f sel atol rtol (a, x) q) (hqb : q.1 ≤ b) :
    a ≤ q.1 ∧ ‖q.2 - y q.1‖ ≤ (‖x - y a‖ + η * (q.1 - a)) * Real.exp (Λ * (q.1 - a)) := by
  induction hq with
  | refl => simp
  | @tail q r _ hqr ih =>
    obtain ⟨hlt, k, e, st, hst, -⟩ := hqr
    obtain ⟨h1, h2⟩ := ih (by linarith)
    refine ⟨by linarith, ?_⟩
    set s := r.1 - q.1 with hs
    have hs0 : 0 < s := sub_pos.2 hlt
    have hr : r.1 = q.1 + s := by rw [hs]; ring
    have hx := hstep _ _ _ _ _ _ _ hst
    have h0q : 0 ≤ q.1 - a := by linarith
    have hqρ : ‖q.2 - y q.1‖ ≤ ρ := by
      refine h2.trans (le_trans ?_ hρ)
      have : q.1 - a ≤ b - a := by linarith
      have h0T : 0 ≤ b - a := by linarith
      gcongr
    have a3 : ‖r.2 - y r.1‖ ≤ (1 + Λ * s) * ‖q.2 - y q.1‖ + η * s := by
      rw [hx, hr]
      exact hone q.1 s q.2 (by linarith) hs0.le (by linarith) hqρ
    have b1 : 1 + Λ * s ≤ Real.exp (Λ * s) := by linarith [Real.add_one_le_exp (Λ * s)]
    have b2 : Real.exp (Λ * (r.1 - a)) = Real.exp (Λ * (q.1 - a)) * Real.exp (Λ * s) := by
      rw [← Real.exp_add]; congr 1; rw [hr]; ring
    have b3 : 1 ≤ Real.exp (Λ * (r.1 - a)) := Real.one_le_exp (mul_nonneg hΛ (by linarith))
    calc ‖r.2 - y r.1‖ ≤ (1 + Λ * s) * ‖q.2 - y q.1‖ + η * s := a3
      _ ≤ Real.exp (Λ * s) * ((‖x - y a‖ + η * (q.1 - a)) * Real.exp (Λ * (q.1 - a))) + η * s * Real.exp (Λ * (r.1 - a)) := by
          refine add_le_add (mul_le_mul b1 h2 (norm_nonneg _) (Real.exp_nonneg _)) ?_
          exact le_mul_of_one_le_right (by positivity) b3
      _ = _ := by rw [b2, hr]; ring

/-- One step of `dopri5` near the solutions in a bounded region. -/
theorem dopri5_one_step {f : ℝ → (ι → ℝ) → ι → ℝ} (hf : ContDiff ℝ 5 (fun p : ℝ × (ι → ℝ) => f p.1 p.2)) (t0 T R : ℝ) :
    OneStepNear 5 (fun x t s => x + s • comb (constructDopri5 ℝ).bsol (rkStagesT f x t s
      ((0 :: (constructDopri5 ℝ).c).zip (butcherRows (constructDopri5 ℝ))) [])) f R t0 T :=
  rk_one_step (n := 4) (by exact_mod_cast hf) _ dopri5_explicit (constructDopri5 ℝ).bsol
    (fun τ hτ => by
      rw [dopri5_rows_cast, dopri5_bsol_cast, orderDefect_cast, C03_dopri5_order_conditions τ hτ, Rat.cast_zero])
    (fun x t s => by rw [dopri5_nodes]) t0 T R

/-- Combinations of the stages are bounded on bounded regions, for small steps. -/
theorem rk_stages_ball {f : ℝ → (ι → ℝ) → ι → ℝ} (hf : ContDiff ℝ 1 (fun p : ℝ × (ι → ℝ) => f p.1 p.2)) (t0 T R : ℝ)
    (rows : List (ℝ × List ℝ)) (b : List ℝ) :
    ∃ E δ, 0 ≤ E ∧ 0 < δ ∧ ∀ t s x, t0 ≤ t → t ≤ T → 0 ≤ s → s ≤ δ → ‖x‖ ≤ R → ‖comb b (rkStagesT f x t s rows [])‖ ≤ E := by
  obtain ⟨G, -, -, ⟨B, hB⟩, hFG⟩ := exists_cutoff (n := 1) one_ne_zero (by exact_mod_cast hf)
    (R := |R| + |t0| + |T| + 2) (by positivity)
  have hB0 : 0 ≤ B := (norm_nonneg _).trans (hB 0)
  have hag : ∀ t x, t0 - 1 ≤ t → t ≤ T + 1 → ‖x‖ ≤ |R| + 1 → f t x = G (t, x) := by
    intro t x h1 h2 h3
    refine hFG (t, x) ?_
    rw [Prod.norm_def]
    have := neg_abs_le t0
    have := le_abs_self T
    have := abs_nonneg t0
    have := abs_nonneg T
    have := abs_nonneg R
    refine max_le ?_ ?_
    · rw [Real.norm_eq_abs, abs_le]
      constructor <;> linarith
    · linarith
  obtain ⟨W, hW0, hW⟩ := exists_row_bound rows
  have hS : 0 ≤ (b.map abs).sum := List.sum_nonneg (by simp +contextual)
  have hden : 0 < 1 + W * B + W := by positivity
  refine ⟨(b.map abs).sum * B, 1 / (1 + W * B + W), by positivity, by positivity, fun t s x ht hT hs hsδ hx => ?_⟩
  rw [le_div_iff₀ hden] at hsδ
  have hWB : 0 ≤ s * (W * B) := by positivity
  have hsW : 0 ≤ s * W := by positivity
  have hxR : ‖x‖ ≤ |R| := hx.trans (le_abs_self R)
  rw [rkStagesT_congr (g := fun t x => G (t, x)) (fun t x => hB _) hag hs (W := W) (by nlinarith) (by nlinarith)
    (by nlinarith) rows hW [] (by simp)]
  exact comb_norm_le hB0 b _ (rkStagesT_bounded (g := fun t x => G (t, x)) (fun t x => hB _) x t s rows [] (by simp))

/-- Backward integration over one interval `[a, b]` of `[t0, T]`: for every solution `y` on `[a, b]` with `‖y‖ ≤ R`, from a state
near `y b`, `odeint` returns a state near `y a`. -/
def BackInterval (solver : Solver (Except PyErr) ℝ (ι → ℝ) A) (args : A) (F : ℝ → (ι → ℝ) → ι → ℝ) (R t0 T C Λ δ : ℝ) : Prop :=
  ∀ (y : ℝ → ι → ℝ) (a b : ℝ) (x : ι → ℝ) (atol rtol : ℝ) (saveAt : List ℝ) (sel : Finset ι), t0 ≤ a → a < b → b ≤ T → b - a ≤ δ →
    SolvesOn F y a b → (∀ t ∈ Icc a b, ‖y t‖ ≤ R) →
    (‖x - y b‖ + C * (b - a) ^ 6) * Real.exp (Λ * (b - a)) ≤ 1 / 2 → 0 < atol → 0 ≤ rtol →
    ∃ fuel0 x', ‖x' - y a‖ ≤ (‖x - y b‖ + C * (b - a) ^ 6) * Real.exp (Λ * (b - a)) ∧ ∀ fuel, fuel0 ≤ fuel →
      odeint fuel (pureField F) x [b, a] solver atol rtol false false saveAt args sel = .ok (some ([-b, -a], [x, x']))

theorem dopri5_backInterval (F : ℝ → (ι → ℝ) → ι → ℝ) (hF : ContDiff ℝ 5 (fun p : ℝ × (ι → ℝ) => F p.1 p.2))
    (R t0 T : ℝ) (args : A) :
    ∃ C Λ δ, 0 ≤ C ∧ 0 ≤ Λ ∧ 0 < δ ∧ BackInterval (dopri5Solver (Except PyErr) ℝ (ι → ℝ) A) args F R t0 T C Λ δ := by
  set f : ℝ → (ι → ℝ) → ι → ℝ := fun t x => -F (-t) x with hfdef
  have hf : ContDiff ℝ 5 (fun p : ℝ × (ι → ℝ) => f p.1 p.2) := ContDiff.neg (hF.comp ((contDiff_fst.neg).prodMk contDiff_snd))
  obtain ⟨C, Λ, δ, hC, hΛ, hδ, H⟩ := dopri5_one_step hf (-T) (-t0) R
  obtain ⟨E, δe, hE, hδe, herr⟩ := rk_stages_ball (hf.of_le (by norm_num)) (-T) (-t0) (R + 1)
    ((0 :: (constructDopri5 ℝ).c).zip (butcherRows (constructDopri5 ℝ))) (constructDopri5 ℝ).berr
  refine ⟨C, Λ, δ, hC, hΛ, hδ, ?_⟩
  intro z a b x atol rtol saveAt sel ha hab hb hlen hz hzR hsm hat hrt
  set y : ℝ → ι → ℝ := fun s => z (-s) with hydef
  have hy : ∀ t ∈ Icc (-b) (-a), HasDerivWithinAt y (f t (y t)) (Icc (-b) (-a)) t := hz.reverse
  have hyR : ∀ t ∈ Icc (-b) (-a), ‖y t‖ ≤ R := fun t ht => hzR (-t) ⟨by linarith [ht.2], by linarith [ht.1]⟩
  have hs := dopri5_fsalSolver (ι := ι) args
  have hba : 0 < b - a := sub_pos.2 hab
  set η := C * (b - a) ^ 5 with hη
  have hη0 : 0 ≤ η := by positivity
  have hyb : y (-b) = z b := by rw [hydef]; simp
  have hya : y (-a) = z a := by rw [hydef]; simp
  have hdiff : -a - -b = b - a := by ring
  have hηe : η * (b - a) = C * (b - a) ^ 6 := by rw [hη]; ring
  have hone : ∀ t s x, -b ≤ t → 0 ≤ s → t + s ≤ -a → ‖x - y t‖ ≤ 1 / 2 →
      ‖x + s • comb (constructDopri5 ℝ).bsol (rkStagesT f x t s
          ((0 :: (constructDopri5 ℝ).c).zip (butcherRows (constructDopri5 ℝ))) []) - y (t + s)‖ ≤
        (1 + Λ * s) * ‖x - y t‖ + η * s := by
    intro t s x h1 h2 h3 h4
    have hsub : Icc t (t + s) ⊆ Icc (-b) (-a) := Icc_subset_Icc h1 h3
    refine (H y t s x (by linarith) h2 (by linarith) (by linarith)
      (fun u hu => ⟨(hy u (hsub hu)).mono hsub, hyR u (hsub hu)⟩) (by linarith)).trans (add_le_add le_rfl ?_)
    have hsb : s ≤ b - a := by linarith
    calc C * s ^ (5 + 1) = C * s ^ 5 * s := by ring
      _ ≤ C * (b - a) ^ 5 * s := by gcongr
  have hρ : (‖x - y (-b)‖ + η * (-a - -b)) * Real.exp (Λ * (-a - -b)) ≤ 1 / 2 := by
    rw [hyb, hdiff, hηe]; exact hsm
  have htube : ∀ t, -b ≤ t → t ≤ -a → (‖x - y (-b)‖ + η * (t - -b)) * Real.exp (Λ * (t - -b)) ≤ 1 / 2 := by
    intro t h1 h2
    refine le_trans ?_ hρ
    have e1 : t - -b ≤ -a - -b := by linarith
    have e2 : 0 ≤ t - -b := by linarith
    have e3 : 0 ≤ -a - -b := by linarith
    gcongr
  obtain ⟨dt, hdt, hback⟩ := odeint_backward_dt F x [] (dopri5Solver (Except PyErr) ℝ (ι → ℝ) A) hs.adaptive atol rtol false
    false saveAt args sel hab
  set δs := min δe (atol / (2 * (E + 1))) with hδs
  have hinc : Increasing [-b, -a] := by simp [Increasing, hab]
  obtain ⟨fuel, ts, xs, hrun⟩ := adaptive_terminates_good hs (by norm_num [dopri5Solver]) rfl rfl rfl f (T := -a) hinc rfl atol rtol
    (odeintInterp (dopri5Solver (Except PyErr) ℝ (ι → ℝ) A) false) false sel (δ := δs) (lt_min hδe (by positivity))
    (fun x' t k => k = f t x' ∧ ‖x' - y t‖ ≤ (‖x - y (-b)‖ + η * (t - -b)) * Real.exp (Λ * (t - -b)))
    (by
      rintro u t dt k1 u' e st ⟨rfl, hu⟩ ht0 hdt hle - hst
      refine ⟨rfl, ?_⟩
      rw [hs.first_stage] at hst
      have hx' := dopri5_step_rk f u t dt hst
      have b4 : ‖u' - y (t + dt)‖ ≤ (1 + Λ * dt) * ‖u - y t‖ + η * dt := by
        rw [hx']
        exact hone t dt u ht0 hdt.le hle (hu.trans (htube t ht0 (by linarith)))
      have c1 : 1 + Λ * dt ≤ Real.exp (Λ * dt) := by linarith [Real.add_one_le_exp (Λ * dt)]
      have c2 : Real.exp (Λ * (t + dt - -b)) = Real.exp (Λ * (t - -b)) * Real.exp (Λ * dt) := by
        rw [← Real.exp_add]; congr 1; ring
      have c3 : 1 ≤ Real.exp (Λ * (t + dt - -b)) := Real.one_le_exp (mul_nonneg hΛ (by linarith))
      calc ‖u' - y (t + dt)‖ ≤ (1 + Λ * dt) * ‖u - y t‖ + η * dt := b4
        _ ≤ Real.exp (Λ * dt) * ((‖x - y (-b)‖ + η * (t - -b)) * Real.exp (Λ * (t - -b))) +
              η * dt * Real.exp (Λ * (t + dt - -b)) := by
            refine add_le_add (mul_le_mul c1 hu (norm_nonneg _) (Real.exp_nonneg _)) ?_
            exact le_mul_of_one_le_right (by positivity) c3
        _ = _ := by rw [c2]; ring)
    (by
      rintro u t dt k1 k u' e st ⟨rfl, hu⟩ ht0 htT hdt hle hst
      rw [hs.first_stage] at hst
      have he := dopri5_step_err f u t dt hst
      have huR : ‖u‖ ≤ R + 1 := by
        have h1 := hu.trans (htube t ht0 htT)
        have h2 := hyR t ⟨ht0, htT⟩
        have h3 : ‖u‖ ≤ ‖u - y t‖ + ‖y t‖ := by simpa using norm_add_le (u - y t) (y t)
        linarith
      have hb := herr t dt u (by linarith) (by linarith) hdt.le (hle.trans (min_le_left _ _)) huR
      have hb' : ∀ i, |e i| ≤ E * dt := by
        intro i
        refine (norm_le_pi_norm e i).trans ?_
        rw [he, norm_smul, Real.norm_of_nonneg hdt.le, mul_comm]
        exact mul_le_mul_of_nonneg_right hb hdt.le
      refine lt_of_le_of_lt (errorNorm_le sel atol rtol hat hrt u u' _ (E * dt) (by positivity) hb') ?_
      rw [div_lt_one hat]
      have e1 : (E + 1) * dt ≤ (E + 1) * (atol / (2 * (E + 1))) :=
        mul_le_mul_of_nonneg_left (hle.trans (min_le_right _ _)) (by positivity)
      have e2 : (E + 1) * (atol / (2 * (E + 1))) = atol / 2 := by field_simp
      rw [e2] at e1
      linarith)
    (-F (-(-b)) x) x ⟨rfl, by simp⟩ hdt
  have hrun' : odeint fuel (pureField F) x [b, a] (dopri5Solver (Except PyErr) ℝ (ι → ℝ) A) atol rtol false false saveAt args sel
      = .ok (some (ts, xs)) := by rw [hback fuel]; exact hrun
  have hdec : [b, a].Pairwise (· > ·) := by simp [hab]
  obtain ⟨r, hr, h21⟩ := C21_times_backward hs F x b a [] hdec atol rtol false saveAt sel fuel
  rw [hrun'] at hr
  obtain ⟨hts, hlen', hx0⟩ := h21 ts xs (Except.ok.inj hr).symm
  subst hts
  obtain ⟨h0, hx0', hl, hch⟩ := C22_accepted_backward hs F x b a [] hdec atol rtol false false (Or.inl rfl) saveAt sel fuel _ xs hrun'
  match xs, hlen', hx0 with
  | [], h, _ => simp at h
  | [_], h, _ => simp at h
  | _ :: _ :: _ :: _, h, _ => simp at h
  | [x0, x'], _, hx0 =>
    simp only [List.getElem?_cons_zero, Option.some.injEq] at hx0
    subst hx0
    have hreach := hch 0 (-b) x0 (-a) x' rfl rfl rfl rfl
    have := (reached_error_from hΛ hη0 (fun x t s k x' e st hst => dopri5_step_rk f x t s hst) hone hρ hreach le_rfl).2
    simp only [hya, hyb, hdiff, hηe] at this
    exact ⟨fuel, x', this, fun fuel' hle => C21_fuel_irrelevant hs F x0 b a [] atol rtol false false saveAt sel fuel fuel' hle _ hrun'⟩

end interval

section flat

variable {ι κ : Type} [Fintype ι] [Fintype κ]

/-- The covector with coordinates `l`. -/
noncomputable def covec (l : ι → ℝ) : (ι → ℝ) →L[ℝ] ℝ := ∑ j, l j • ContinuousLinearMap.proj (R := ℝ) (φ := fun _ : ι => ℝ) j

theorem covec_apply (l v : ι → ℝ) : covec l v = ∑ j, l j * v j := by
  simp [covec]

open Classical in
theorem covec_coords (l : (ι → ℝ) →L[ℝ] ℝ) : covec (fun i => l (Pi.single i 1)) = l := by
  refine ContinuousLinearMap.ext fun v => ?_
  rw [covec_apply]
  conv_rhs => rw [← Finset.univ_sum_single v, map_sum]
  refine Finset.sum_congr rfl fun i _ => ?_
  have : (Pi.single i (v i) : ι → ℝ) = v i • Pi.single i 1 := by
    funext j
    by_cases h : j = i
    · subst h; simp
    · simp [Pi.single_eq_of_ne h]
  rw [this, map_smul, smul_eq_mul, mul_comm]

open Classical in
theorem covec_single (l : ι → ℝ) (i : ι) : covec l (Pi.single i 1) = l i := by
  rw [covec_apply]
  simp [Pi.single_apply]

theorem contDiff_covec {n : WithTop ℕ∞} : ContDiff ℝ n (covec : (ι → ℝ) → (ι → ℝ) →L[ℝ] ℝ) := by
  unfold covec
  fun_prop

open Classical in
/-- The adjoint state in coordinates, as one vector. -/
noncomputable def flatten : AdjS (ι → ℝ) (κ → ℝ) →L[ℝ] (AdjIdx ι κ → ℝ) :=
  ContinuousLinearMap.pi fun idx => match idx with
    | .inl i => (ContinuousLinearMap.proj (R := ℝ) (φ := fun _ : ι => ℝ) i).comp (ContinuousLinearMap.fst ℝ _ _)
    | .inr (.inl i) => (ContinuousLinearMap.apply ℝ ℝ (Pi.single i 1 : ι → ℝ)).comp
        ((ContinuousLinearMap.fst ℝ _ _).comp (ContinuousLinearMap.snd ℝ _ _))
    | .inr (.inr (.inl k)) => (ContinuousLinearMap.apply ℝ ℝ (Pi.single k 1 : κ → ℝ)).comp
        ((ContinuousLinearMap.fst ℝ _ _).comp ((ContinuousLinearMap.snd ℝ _ _).comp (ContinuousLinearMap.snd ℝ _ _)))
    | .inr (.inr (.inr _)) =>
        (ContinuousLinearMap.snd ℝ _ _).comp ((ContinuousLinearMap.snd ℝ _ _).comp (ContinuousLinearMap.snd ℝ _ _))

open Classical in
theorem flatten_apply (z : AdjS (ι → ℝ) (κ → ℝ)) : flatten z =
    packState (z.1, fun i => z.2.1 (Pi.single i 1), fun k => z.2.2.1 (Pi.single k 1), z.2.2.2) := by
  funext idx
  rcases idx with i | i | i | i <;> rfl

/-- The adjoint state with the given coordinates. -/
noncomputable def unflatten (v : AdjIdx ι κ → ℝ) : AdjS (ι → ℝ) (κ → ℝ) :=
  ((unpackState v).1, covec (unpackState v).2.1, covec (unpackState v).2.2.1, (unpackState v).2.2.2)

theorem unflatten_flatten (z : AdjS (ι → ℝ) (κ → ℝ)) : unflatten (flatten z) = z := by
  rw [flatten_apply, unflatten, unpack_packState]
  simp only [covec_coords]

theorem contDiff_unflatten {n : WithTop ℕ∞} : ContDiff ℝ n (unflatten : (AdjIdx ι κ → ℝ) → AdjS (ι → ℝ) (κ → ℝ)) := by
  unfold unflatten unpackState
  refine ContDiff.prodMk (by fun_prop) (ContDiff.prodMk (contDiff_covec.comp (by fun_prop))
    (ContDiff.prodMk (contDiff_covec.comp (by fun_prop)) (by fun_prop)))

variable {f : (κ → ℝ) → ℝ → (ι → ℝ) → (ι → ℝ)}

/-- The flat adjoint equations are the adjoint equations in coordinates. -/
theorem flatAdjoint_eq (hd : Differentiable ℝ fun q : (κ → ℝ) × ℝ × (ι → ℝ) => f q.1 q.2.1 q.2.2) (θ : κ → ℝ) (t : ℝ)
    (v : AdjIdx ι κ → ℝ) :
    flatAdjoint (coordAdjoint f θ) t v = flatten (adjointDynamics (smoothAdjoint f θ none) t (unflatten v)) := by
  classical
  have hx : ∀ x, DifferentiableAt ℝ (fun x' => f θ t x') x := fun x =>
    (hd.comp (by fun_prop : Differentiable ℝ fun x' : ι → ℝ => ((θ, t, x') : (κ → ℝ) × ℝ × (ι → ℝ)))) x
  have hp : ∀ x, DifferentiableAt ℝ (fun θ' => f θ' t x) θ := fun x =>
    (hd.comp (by fun_prop : Differentiable ℝ fun θ' : κ → ℝ => ((θ', t, x) : (κ → ℝ) × ℝ × (ι → ℝ)))) θ
  have ht : ∀ x, DifferentiableAt ℝ (fun s => f θ s x) t := fun x =>
    (hd.comp (by fun_prop : Differentiable ℝ fun s : ℝ => ((θ, s, x) : (κ → ℝ) × ℝ × (ι → ℝ)))) t
  have hneg : ∀ l : ι → ℝ, -covec l = covec (-l) := fun l => by
    refine ContinuousLinearMap.ext fun v => ?_
    simp [covec_apply]
  rw [flatten_apply, flatAdjoint]
  congr 1
  simp only [adjointDynamics, coordAdjoint, smoothAdjoint, unflatten, hneg]
  generalize (unpackState v).1 = x
  generalize -(unpackState v).2.1 = l
  refine Prod.ext rfl (Prod.ext ?_ (Prod.ext ?_ ?_))
  · funext i
    have := ((covec l).hasFDerivAt.comp x (hx x).hasFDerivAt).fderiv
    simp only [Function.comp_def, covec_apply] at this
    simp only [this]
  · funext k
    have := ((covec l).hasFDerivAt.comp θ (hp x).hasFDerivAt).fderiv
    simp only [Function.comp_def, covec_apply] at this
    simp only [this]
  · have := ((covec l).hasFDerivAt.comp_hasDerivAt t (ht x).hasDerivAt).deriv
    simp only [Function.comp_def, covec_apply] at this
    simp only [this, covec_apply]

theorem contDiff_flatAdjoint {n : ℕ} (hf : ContDiff ℝ (n + 1 : ℕ) fun q : (κ → ℝ) × ℝ × (ι → ℝ) => f q.1 q.2.1 q.2.2) (θ : κ → ℝ) :
    ContDiff ℝ n fun p : ℝ × (AdjIdx ι κ → ℝ) => flatAdjoint (coordAdjoint f θ) p.1 p.2 := by
  have hd : Differentiable ℝ fun q : (κ → ℝ) × ℝ × (ι → ℝ) => f q.1 q.2.1 q.2.2 := hf.differentiable (by simp)
  simp only [flatAdjoint_eq hd]
  have h := contDiff_adjointDynamics (f := f) (n := n) hf θ (dg := none) (by simpa [lossCot] using contDiff_const)
  exact flatten.contDiff.comp (h.comp (contDiff_fst.prodMk (contDiff_unflatten.comp contDiff_snd)))

theorem solves_flatten (hd : Differentiable ℝ fun q : (κ → ℝ) × ℝ × (ι → ℝ) => f q.1 q.2.1 q.2.2) {θ : κ → ℝ}
    {z : ℝ → AdjS (ι → ℝ) (κ → ℝ)} {a b : ℝ} (hz : SolvesOn (adjointDynamics (smoothAdjoint f θ none)) z a b) :
    SolvesOn (flatAdjoint (coordAdjoint f θ)) (fun t => flatten (z t)) a b := by
  intro t ht
  rw [flatAdjoint_eq hd, unflatten_flatten]
  exact flatten.hasFDerivAt.comp_hasDerivWithinAt t (hz t ht)

end flat

section exact

variable {X P : Type} [NormedAddCommGroup X] [NormedSpace ℝ X] [FiniteDimensional ℝ X] [NormedAddCommGroup P] [NormedSpace ℝ P]
  [FiniteDimensional ℝ P]

/-- The gradient of a loss on the last state, from an exact solution of the adjoint equations. -/
theorem terminal_gradient {f : P → ℝ → X → X} (hf : ContDiff ℝ 1 fun q : P × ℝ × X => f q.1 q.2.1 q.2.2) {θ : P} {x0 : X}
    {ℓ : X → ℝ} (hℓ : Differentiable ℝ ℓ) {t0 T : ℝ} (htT : t0 < T) (Y : P × X → ℝ → X)
    (hY : ∀ᶠ q in 𝓝 (θ, x0), Y q t0 = q.2 ∧ SolvesOn (f q.1) (Y q) t0 T) :
    ∃ z : ℝ → AdjS X P, z T = (Y (θ, x0) T, fderiv ℝ ℓ (Y (θ, x0) T), 0, fderiv ℝ ℓ (Y (θ, x0) T) (f θ T (Y (θ, x0) T))) ∧
      SolvesOn (adjointDynamics (smoothAdjoint f θ none)) z t0 T ∧
      HasFDerivAt (fun q => ℓ (Y q T)) ((z t0).2.2.1.coprod (z t0).2.1) (θ, x0) := by
  have hd : Differentiable ℝ fun q : P × ℝ × X => f q.1 q.2.1 q.2.2 := hf.differentiable (by simp)
  obtain ⟨hy0, hy⟩ := hY.self_of_nhds
  have hdg : Continuous fun p : ℝ × X => lossCot (none : Option (ℝ → X → (X →L[ℝ] ℝ))) p.1 p.2 := continuous_const
  have hfc : Continuous fun p : ℝ × P × X => fderiv ℝ (fun q : P × X => f q.1 p.1 q.2) p.2 := by
    have e : (fun p : ℝ × P × X => fderiv ℝ (fun q : P × X => f q.1 p.1 q.2) p.2) = fun p =>
        (fderiv ℝ (fun q : P × ℝ × X => f q.1 q.2.1 q.2.2) (p.2.1, p.1, p.2.2)).comp
          ((ContinuousLinearMap.fst ℝ P X).prod ((0 : P × X →L[ℝ] ℝ).prod (ContinuousLinearMap.snd ℝ P X))) := by
      funext p
      exact (partial_q hd p.1 p.2).fderiv
    rw [e]
    have h1 : Continuous fun p : ℝ × P × X => fderiv ℝ (fun q : P × ℝ × X => f q.1 q.2.1 q.2.2) (p.2.1, p.1, p.2.2) :=
      (hf.continuous_fderiv (by simp)).comp (by fun_prop : Continuous fun p : ℝ × P × X => ((p.2.1, p.1, p.2.2) : P × ℝ × X))
    exact h1.clm_comp continuous_const
  obtain ⟨solve, hsolve⟩ := exists_exact_solve hf θ hdg hy
  obtain ⟨μ, lam, d, d', hrun, hD⟩ := C83_frechet hfc (fun t q => (partial_q hd t q).differentiableAt) hdg
    (G := fun _ _ => 0) continuous_const (fun t x => hasFDerivAt_const (0 : ℝ) x) Y hY hsolve
    [T] (by simpa using htT) rfl [fun _ => 0, ℓ] (by
      intro l hl
      simp only [List.mem_cons, List.not_mem_nil, or_false] at hl
      rcases hl with rfl | rfl
      · exact differentiable_const 0
      · exact hℓ) rfl [0, 0] rfl
  generalize hyd : Y (θ, x0) = y at *
  obtain ⟨z, tr, hz0, hz, hsol⟩ := hsolve (y T, fderiv ℝ ℓ (y T), 0, fderiv ℝ ℓ (y T) (f θ T (y T))) T t0 le_rfl htT le_rfl rfl
  have hμ : μ = (z t0).2.2.1 ∧ lam = (z t0).2.1 := by
    have e0 : fderiv ℝ (fun _ : X => (0 : ℝ)) (y t0) = 0 := by simp
    simp only [adjointBackward, adjointLoop, getLastItem, getItem, List.map_cons, List.map_nil, List.zipWith_cons_cons,
      List.zipWith_nil_left, List.zipWith_nil_right, List.getLast?_cons_cons, List.getLast?_singleton, List.length_cons,
      List.length_nil, Nat.reduceAdd, Nat.reduceSub, bind, Except.bind, pure, Except.pure, List.getElem?_cons_succ,
      List.getElem?_cons_zero, e0] at hrun
    have e1 : (smoothAdjoint f θ none).pair (fderiv ℝ ℓ (y T)) ((smoothAdjoint f θ none).vf T (y T)) =
      fderiv ℝ ℓ (y T) (f θ T (y T)) := rfl
    rw [e1] at hrun
    simp only [pure, Except.pure] at hsol
    rw [hsol] at hrun
    simp only [List.getLast?_cons_cons, List.getLast?_singleton, add_zero] at hrun
    have := Except.ok.inj hrun
    simp only [Prod.mk.injEq] at this
    exact ⟨this.1.symm, this.2.1.symm⟩
  refine ⟨z, hz0, hz, ?_⟩
  rw [← hμ.1, ← hμ.2]
  simpa using hD

end exact

section loop

variable {ι κ A : Type} [Fintype ι] [Fintype κ]

/-- The loop of the backward pass when only the last output has a loss. -/
theorem adjointLoop_backInterval {solver : Solver (Except PyErr) ℝ (AdjIdx ι κ → ℝ) A} {args : A}
    {F : AdjointField ℝ (ι → ℝ) (ι → ℝ) (κ → ℝ)} {y : ℝ → AdjIdx ι κ → ℝ} {R t0 T C Λ δ : ℝ} (hC : 0 ≤ C) (hΛ : 0 ≤ Λ)
    (hint : BackInterval solver args (flatAdjoint F) R t0 T C Λ δ) (hy : SolvesOn (flatAdjoint F) y t0 T)
    (hyR : ∀ t ∈ Icc t0 T, ‖y t‖ ≤ R) {ts : List ℝ} (h0 : ts[0]? = some t0)
    (hmono : ts.Pairwise (· < ·)) (hle : ∀ t ∈ ts, t0 ≤ t ∧ t ≤ T) {h : ℝ} (hh : h ≤ δ) (hgap : GapsAtMost h ts)
    {atol rtol : ℝ} (hat : 0 < atol) (hrt : 0 ≤ rtol) {gradT : List ℝ} {gradX : List (ι → ℝ)} :
    ∀ (i : ℕ) (S : AdjState (ι → ℝ) (ι → ℝ) (κ → ℝ) ℝ) (d ti : ℝ), ts[i]? = some ti →
      (∀ j < i, gradT[j]? = some 0 ∧ gradX[j]? = some 0) →
      (‖packState S - y ti‖ + C * h ^ 5 * (ti - t0)) * Real.exp (Λ * (ti - t0)) ≤ 1 / 2 →
      ∃ fuel0 S' d', ‖packState S' - y t0‖ ≤ (‖packState S - y ti‖ + C * h ^ 5 * (ti - t0)) * Real.exp (Λ * (ti - t0)) ∧
        ∀ fuel, fuel0 ≤ fuel →
          adjointLoop (adjointOdeint fuel solver atol rtol args) F ts gradT gradX i S d = .ok (S', d') := by
  intro i
  induction i with
  | zero =>
    intro S d ti hti _ _
    rw [h0] at hti
    cases hti
    exact ⟨0, S, d, by simp, fun _ _ => rfl⟩
  | succ i ih =>
    intro S d b hb hgr hsm
    obtain ⟨hl, hbe⟩ := List.getElem?_eq_some_iff.1 hb
    obtain ⟨a, ha⟩ : ∃ a, ts[i]? = some a := ⟨ts[i]'(by omega), List.getElem?_eq_getElem (by omega)⟩
    obtain ⟨hl', hae⟩ := List.getElem?_eq_some_iff.1 ha
    have hab : a < b := by
      rw [← hae, ← hbe]
      exact List.pairwise_iff_getElem.1 hmono i (i + 1) hl' hl (by omega)
    have ha0 : t0 ≤ a := (hle a (hae ▸ List.getElem_mem hl')).1
    have hbT : b ≤ T := (hle b (hbe ▸ List.getElem_mem hl)).2
    have hbah : b - a ≤ h := hgap i a b ha hb
    have hba0 : 0 < b - a := sub_pos.2 hab
    have hh0 : 0 ≤ h := hba0.le.trans hbah
    have hloc : C * (b - a) ^ 6 ≤ C * h ^ 5 * (b - a) := by
      calc C * (b - a) ^ 6 = C * (b - a) ^ 5 * (b - a) := by ring
        _ ≤ C * h ^ 5 * (b - a) := by gcongr
    have ha0' : 0 ≤ a - t0 := sub_nonneg.2 ha0
    have hone : (‖packState S - y b‖ + C * (b - a) ^ 6) * Real.exp (Λ * (b - a)) ≤
        (‖packState S - y b‖ + C * h ^ 5 * (b - a)) * Real.exp (Λ * (b - a)) := by gcongr
    have hall : ∀ e, e ≤ (‖packState S - y b‖ + C * h ^ 5 * (b - a)) * Real.exp (Λ * (b - a)) →
        (e + C * h ^ 5 * (a - t0)) * Real.exp (Λ * (a - t0)) ≤
          (‖packState S - y b‖ + C * h ^ 5 * (b - t0)) * Real.exp (Λ * (b - t0)) := by
      intro e he
      have e1 : Real.exp (Λ * (b - t0)) = Real.exp (Λ * (b - a)) * Real.exp (Λ * (a - t0)) := by
        rw [← Real.exp_add]; congr 1; ring
      have e2 : 1 ≤ Real.exp (Λ * (b - a)) := Real.one_le_exp (by positivity)
      have e3 : C * h ^ 5 * (a - t0) ≤ C * h ^ 5 * (a - t0) * Real.exp (Λ * (b - a)) :=
        le_mul_of_one_le_right (by positivity) e2
      rw [e1, ← mul_assoc]
      refine mul_le_mul_of_nonneg_right ?_ (Real.exp_nonneg _)
      calc e + C * h ^ 5 * (a - t0) ≤ (‖packState S - y b‖ + C * h ^ 5 * (b - a)) * Real.exp (Λ * (b - a)) +
            C * h ^ 5 * (a - t0) * Real.exp (Λ * (b - a)) := add_le_add he e3
        _ = _ := by ring
    have hsm' : (‖packState S - y b‖ + C * (b - a) ^ 6) * Real.exp (Λ * (b - a)) ≤ 1 / 2 := by
      refine le_trans (le_trans ?_ (hall _ hone)) hsm
      have e2 : 1 ≤ Real.exp (Λ * (a - t0)) := Real.one_le_exp (by positivity)
      refine le_trans ?_ (le_mul_of_one_le_right (by positivity) e2)
      have : 0 ≤ C * h ^ 5 * (a - t0) := by positivity
      linarith
    obtain ⟨f1, v, hv, hrun⟩ := hint y a b (packState S) atol rtol [] (seminormEntries ι κ) ha0 hab hbT (hbah.trans hh)
      (hy.mono ha0 hbT) (fun t ht => hyR t ⟨ha0.trans ht.1, ht.2.trans hbT⟩) hsm' hat hrt
    obtain ⟨g1, g2⟩ := hgr i (by omega)
    set S1 := unpackState v with hS1
    have hpk : packState S1 = v := pack_unpackState v
    have hstep : (S1.1, S1.2.1 + 0, S1.2.2.1, S1.2.2.2 - 0) = S1 := by simp
    have hfin := hall _ (hv.trans hone)
    obtain ⟨f2, S', d', hS', hrun2⟩ := ih S1 (F.pair S1.2.1 (F.vf b S1.1)) a ha (fun j hj => hgr j (by omega))
      (by rw [hpk]; exact hfin.trans hsm)
    refine ⟨max f1 f2, S', d', ?_, fun fuel hfuel => ?_⟩
    · rw [hpk] at hS'
      exact hS'.trans hfin
    · have r1 := hrun fuel ((le_max_left _ _).trans hfuel)
      have r2 := hrun2 fuel ((le_max_right _ _).trans hfuel)
      have r3 : adjointOdeint fuel solver atol rtol args (fun t A => pure (adjointDynamics F t A)) S [b, a] =
          .ok ([-b, -a], [S, S1]) := by
        rw [adjointOdeint, adjointOdeintOn_eq, r1]
        rfl
      simp only [adjointLoop, getItem, hb, ha, g1, g2, bind, Except.bind, pure, Except.pure]
      simp only [pure, Except.pure] at r3
      rw [r3]
      simp only [getLastItem, List.getLast?_cons_cons, List.getLast?_singleton, pure, Except.pure]
      rw [hstep]
      exact r2

end loop

section main

variable {ι κ A A' : Type} [Fintype ι] [Fintype κ]

open Classical in
/-- **C148.** `dopri5` in both passes of the adjoint method, loss `ℓ` on the last output: for every grid whose gaps are at most
`h ≤ δ` and all tolerances with `atol > 0`, `rtol ≥ 0`, both passes return, and the gradients with respect to the parameters
and to the initial state are within `C h⁵` of the derivative `D` of `(θ, x0) ↦ ℓ (Y (θ, x0) T)`. -/
theorem C148_dopri5_gradients {f : (κ → ℝ) → ℝ → (ι → ℝ) → (ι → ℝ)}
    (hf : ContDiff ℝ 6 fun q : (κ → ℝ) × ℝ × (ι → ℝ) => f q.1 q.2.1 q.2.2) {θ : κ → ℝ} {x0 : ι → ℝ}
    {ℓ : (ι → ℝ) → ℝ} (hℓ : ContDiff ℝ 2 ℓ) {t0 T : ℝ} (htT : t0 < T) (Y : (κ → ℝ) × (ι → ℝ) → ℝ → (ι → ℝ))
    (hY : ∀ᶠ q in 𝓝 (θ, x0), Y q t0 = q.2 ∧ SolvesOn (f q.1) (Y q) t0 T) (args : A) (argsAdj : A') :
    ∃ D : (κ → ℝ) × (ι → ℝ) →L[ℝ] ℝ, HasFDerivAt (fun q => ℓ (Y q T)) D (θ, x0) ∧
      ∃ C δ, 0 < δ ∧ ∀ (t1 : ℝ) (rest : List ℝ) (h atol rtol atolAdj rtolAdj : ℝ) (saveAt : List ℝ) (sel : Finset ι), h ≤ δ →
        Increasing (t0 :: t1 :: rest) → (t0 :: t1 :: rest).getLast? = some T → GapsAtMost h (t0 :: t1 :: rest) →
        0 < atol → 0 ≤ rtol → 0 < atolAdj → 0 ≤ rtolAdj →
        ∃ fuel0 sol xT μ lam d d', sol.length = rest.length + 2 ∧ sol.getLast? = some xT ∧
          (∀ fuel, fuel0 ≤ fuel →
            odeint fuel (pureField (f θ)) x0 (t0 :: t1 :: rest) (dopri5Solver (Except PyErr) ℝ (ι → ℝ) A) atol rtol false false
              saveAt args sel = .ok (some (t0 :: t1 :: rest, sol)) ∧
            adjointBackward (adjointOdeint fuel (dopri5Solver (Except PyErr) ℝ (AdjIdx ι κ → ℝ) A') atolAdj rtolAdj argsAdj)
              (coordAdjoint f θ) (t0 :: t1 :: rest) sol (List.replicate (rest.length + 2) 0)
              (List.replicate (rest.length + 1) 0 ++ [fun i => fderiv ℝ ℓ xT (Pi.single i 1)]) = .ok (μ, lam, d, d')) ∧
          (∀ k, |μ k - D (Pi.single k 1, 0)| ≤ C * h ^ 5) ∧ ∀ i, |lam i - D (0, Pi.single i 1)| ≤ C * h ^ 5 := by
  have hf1 : ContDiff ℝ 1 fun q : (κ → ℝ) × ℝ × (ι → ℝ) => f q.1 q.2.1 q.2.2 := hf.of_le (by norm_num)
  have hf5 : ContDiff ℝ 5 fun q : (κ → ℝ) × ℝ × (ι → ℝ) => f q.1 q.2.1 q.2.2 := hf.of_le (by norm_num)
  have hd : Differentiable ℝ fun q : (κ → ℝ) × ℝ × (ι → ℝ) => f q.1 q.2.1 q.2.2 := hf1.differentiable (by simp)
  obtain ⟨z, hzT, hz, hD⟩ := terminal_gradient hf1 (hℓ.differentiable (by simp)) htT Y hY
  obtain ⟨hy0, hy⟩ := hY.self_of_nhds
  refine ⟨_, hD, ?_⟩
  simp only at hy0
  generalize Y (θ, x0) = y at *
  subst hy0
  obtain ⟨C1, δ1, hδ1, H1⟩ := C86_dopri5_total (f θ)
    (hf5.comp (by fun_prop : ContDiff ℝ 5 fun p : ℝ × (ι → ℝ) => ((θ, p.1, p.2) : (κ → ℝ) × ℝ × (ι → ℝ)))) y t0 T hy args
  have hzf := solves_flatten hd hz
  obtain ⟨R, hR⟩ := isCompact_Icc.exists_bound_of_continuousOn (fun t ht => (hzf t ht).continuousWithinAt)
  obtain ⟨C2, Λ, δ2, hC2, hΛ, hδ2, H2⟩ := dopri5_backInterval (flatAdjoint (coordAdjoint f θ))
    (by exact_mod_cast contDiff_flatAdjoint (n := 5) (by exact_mod_cast hf) θ) R t0 T argsAdj
  -- the start of the backward pass depends smoothly on the last state
  set st : (ι → ℝ) → AdjS (ι → ℝ) (κ → ℝ) := fun x => (x, fderiv ℝ ℓ x, 0, fderiv ℝ ℓ x (f θ T x)) with hst
  have hstart : ∃ K ε : ℝ, 0 ≤ K ∧ 0 < ε ∧ ∀ x, ‖x - y T‖ ≤ ε → ‖flatten (st x) - flatten (st (y T))‖ ≤ K * ‖x - y T‖ := by
    have hl : ContDiff ℝ 1 (fderiv ℝ ℓ) := hℓ.fderiv_right (by norm_num)
    have hfT : ContDiff ℝ 1 fun x => f θ T x :=
      hf1.comp (by fun_prop : ContDiff ℝ 1 fun x : ι → ℝ => ((θ, T, x) : (κ → ℝ) × ℝ × (ι → ℝ)))
    have hst1 : ContDiff ℝ 1 st := contDiff_id.prodMk (hl.prodMk (contDiff_const.prodMk (hl.clm_apply hfT)))
    have hc : ContDiff ℝ 1 fun x => flatten (st x) := (flatten (ι := ι) (κ := κ)).contDiff.comp hst1
    obtain ⟨K, u, hu, hK⟩ := (hc.contDiffAt (x := y T)).exists_lipschitzOnWith
    obtain ⟨ε, hε, hball⟩ := Metric.nhds_basis_closedBall.mem_iff.1 hu
    refine ⟨K, ε, K.coe_nonneg, hε, fun x hx => ?_⟩
    have := hK.dist_le_mul x (hball (by simpa [dist_eq_norm] using hx)) (y T) (mem_of_mem_nhds hu)
    rwa [dist_eq_norm, dist_eq_norm] at this
  obtain ⟨K, ε, hK0, hε, hK⟩ := hstart
  have hL0 : 0 < T - t0 := sub_pos.2 htT
  set M := (K * |C1| + C2 * (T - t0)) * Real.exp (Λ * (T - t0)) with hM
  have hM0 : 0 ≤ M := by positivity
  refine ⟨M, min (min δ1 δ2) (min 1 (min (ε / (|C1| + 1)) (1 / (2 * (M + 1))))),
    lt_min (lt_min hδ1 hδ2) (lt_min one_pos (lt_min (by positivity) (by positivity))), ?_⟩
  intro t1 rest h atol rtol atolAdj rtolAdj saveAt sel hh hmono hlast hgap hat hrt hat' hrt'
  have hh1 : h ≤ δ1 := hh.trans ((min_le_left _ _).trans (min_le_left _ _))
  have hh2 : h ≤ δ2 := hh.trans ((min_le_left _ _).trans (min_le_right _ _))
  have hh3 : h ≤ 1 := hh.trans ((min_le_right _ _).trans (min_le_left _ _))
  have hh4 : h ≤ ε / (|C1| + 1) := hh.trans ((min_le_right _ _).trans ((min_le_right _ _).trans (min_le_left _ _)))
  have hh5 : h ≤ 1 / (2 * (M + 1)) := hh.trans ((min_le_right _ _).trans ((min_le_right _ _).trans (min_le_right _ _)))
  have h01 : t0 < t1 := (List.pairwise_cons.1 hmono).1 t1 (by simp)
  have hh0 : 0 ≤ h := (sub_nonneg.2 h01.le).trans (hgap 0 t0 t1 rfl rfl)
  have hhp : h ^ 5 ≤ h := by
    calc h ^ 5 ≤ h ^ 1 := pow_le_pow_of_le_one hh0 hh3 (by omega)
      _ = h := pow_one h
  have hlastT : (t0 :: t1 :: rest)[rest.length + 1]? = some T := by
    rw [List.getLast?_eq_getElem?] at hlast
    exact hlast
  have hle : ∀ t ∈ t0 :: t1 :: rest, t0 ≤ t ∧ t ≤ T := by
    intro t ht
    obtain ⟨j, hj, rfl⟩ := List.getElem_of_mem ht
    constructor
    · rcases List.mem_cons.1 ht with he | hm
      · exact he.ge
      · exact ((List.pairwise_cons.1 hmono).1 _ hm).le
    · obtain ⟨hl', hTe⟩ := List.getElem?_eq_some_iff.1 hlastT
      rw [← hTe]
      rcases Nat.lt_or_ge j (rest.length + 1) with hlt | hge
      · exact (List.pairwise_iff_getElem.1 hmono j (rest.length + 1) hj hl' hlt).le
      · have : j = rest.length + 1 := by simp only [List.length_cons] at hj; omega
        subst this
        exact le_rfl
  obtain ⟨f1, sol, hfwd, hlen, hbd⟩ := H1 t1 rest h atol rtol saveAt sel hh1 hmono (fun t ht => (hle t ht).2) hgap hat hrt
  simp only [List.length_cons] at hlen
  obtain ⟨xT, hxT⟩ : ∃ xT, sol[rest.length + 1]? = some xT := ⟨sol[rest.length + 1]'(by omega), List.getElem?_eq_getElem (by omega)⟩
  have hxTl : sol.getLast? = some xT := by
    rw [List.getLast?_eq_getElem?, hlen]
    exact hxT
  have hxe : ‖xT - y T‖ ≤ |C1| * h ^ 5 := (hbd _ _ _ hlastT hxT).trans
    (mul_le_mul_of_nonneg_right (le_abs_self C1) (by positivity))
  have hxε : ‖xT - y T‖ ≤ ε := by
    rw [le_div_iff₀ (by positivity)] at hh4
    calc ‖xT - y T‖ ≤ |C1| * h ^ 5 := hxe
      _ ≤ |C1| * h := by gcongr
      _ ≤ h * (|C1| + 1) := by linarith
      _ ≤ ε := hh4
  -- the start of the backward pass
  set S : AdjState (ι → ℝ) (ι → ℝ) (κ → ℝ) ℝ := (xT, fun i => fderiv ℝ ℓ xT (Pi.single i 1), 0,
    (coordAdjoint f θ).pair (fun i => fderiv ℝ ℓ xT (Pi.single i 1)) ((coordAdjoint f θ).vf T xT)) with hS
  have hSf : packState S = flatten (st xT) := by
    rw [flatten_apply]
    congr 1
    refine Prod.ext rfl (Prod.ext rfl (Prod.ext rfl ?_))
    show ∑ j, fderiv ℝ ℓ xT (Pi.single j 1) * f θ T xT j = fderiv ℝ ℓ xT (f θ T xT)
    rw [← covec_apply, covec_coords]
  have hSe : ‖packState S - flatten (z T)‖ ≤ K * |C1| * h ^ 5 := by
    rw [hSf, hzT]
    refine (hK xT hxε).trans ?_
    rw [mul_assoc]
    exact mul_le_mul_of_nonneg_left hxe hK0
  have hfin : (‖packState S - flatten (z T)‖ + C2 * h ^ 5 * (T - t0)) * Real.exp (Λ * (T - t0)) ≤ M * h ^ 5 := by
    calc _ ≤ (K * |C1| * h ^ 5 + C2 * h ^ 5 * (T - t0)) * Real.exp (Λ * (T - t0)) := by gcongr
      _ = M * h ^ 5 := by rw [hM]; ring
  have hhalf : M * h ^ 5 ≤ 1 / 2 := by
    rw [le_div_iff₀ (by positivity)] at hh5
    have : M * h ^ 5 ≤ M * h := by gcongr
    nlinarith
  obtain ⟨f2, S', d, hS', hback⟩ := adjointLoop_backInterval hC2 hΛ H2 hzf hR (ts := t0 :: t1 :: rest) rfl hmono hle hh2 hgap hat' hrt'
    (gradT := List.replicate (rest.length + 2) 0)
    (gradX := List.replicate (rest.length + 1) 0 ++ [fun i => fderiv ℝ ℓ xT (Pi.single i 1)]) (rest.length + 1) S S.2.2.2 T hlastT
    (fun j hj => ⟨by rw [List.getElem?_replicate, if_pos (by omega)],
      by rw [List.getElem?_append_left (by simpa using hj), List.getElem?_replicate, if_pos hj]⟩) (hfin.trans hhalf)
  have herr : ∀ idx, |packState S' idx - flatten (z t0) idx| ≤ M * h ^ 5 := fun idx =>
    (norm_le_pi_norm (packState S' - flatten (z t0)) idx).trans (hS'.trans hfin)
  refine ⟨max f1 f2, sol, xT, S'.2.2.1, S'.2.1, d, S.2.2.2, hlen, hxTl, fun fuel hfuel => ⟨?_, ?_⟩, fun k => ?_, fun i => ?_⟩
  · exact C21_fuel_irrelevant (dopri5_fsalSolver args) (f θ) (y t0) t0 t1 rest atol rtol false false saveAt sel f1 fuel
      ((le_max_left _ _).trans hfuel) _ hfwd
  · have hb := hback fuel ((le_max_right _ _).trans hfuel)
    have hgl : (List.replicate (rest.length + 1) (0 : ι → ℝ) ++ [fun i => fderiv ℝ ℓ xT (Pi.single i 1)]).getLast? =
        some fun i => fderiv ℝ ℓ xT (Pi.single i 1) := by simp
    simp only [adjointBackward, getLastItem, hxTl, hgl, hlast, bind, Except.bind, pure, Except.pure]
    have hn : (t0 :: t1 :: rest).length - 1 = rest.length + 1 := by simp
    rw [hn]
    exact congrArg (fun r => Except.bind r fun v => Except.ok (v.1.2.2.1, v.1.2.1, v.2, S.2.2.2)) hb
  · have := herr (.inr (.inr (.inl k)))
    simpa [flatten_apply, packState] using this
  · have := herr (.inr (.inl i))
    simpa [flatten_apply, packState] using this

/-- `x' = θ x` on `[0, 1]` with loss `x²`: the gradients `2 x0² e^{2θ}` and `2 x0 e^{2θ}` are approached with fifth order. -/
example (θ x0 : ℝ) : ∃ C δ, 0 < δ ∧ ∀ (t1 : ℝ) (rest : List ℝ) (h atol rtol : ℝ), h ≤ δ → Increasing (0 :: t1 :: rest) →
    (0 :: t1 :: rest).getLast? = some 1 → GapsAtMost h (0 :: t1 :: rest) → 0 < atol → 0 ≤ rtol →
    ∃ fuel sol xT μ lam d d', sol.getLast? = some xT ∧
      odeint fuel (pureField fun _ x => fun i => θ * x i) (fun _ => x0) (0 :: t1 :: rest)
        (dopri5Solver (Except PyErr) ℝ (Unit → ℝ) Unit) atol rtol false false [] () Finset.univ = .ok (some (0 :: t1 :: rest, sol)) ∧
      adjointBackward (adjointOdeint fuel (dopri5Solver (Except PyErr) ℝ (AdjIdx Unit Unit → ℝ) Unit) atol rtol ())
        (coordAdjoint (fun p _ x i => p i * x i) fun _ => θ) (0 :: t1 :: rest) sol (List.replicate (rest.length + 2) 0)
        (List.replicate (rest.length + 1) 0 ++ [fun _ => 2 * xT ()]) = .ok (μ, lam, d, d') ∧
      |μ () - 2 * x0 ^ 2 * Real.exp θ ^ 2| ≤ C * h ^ 5 ∧ |lam () - 2 * x0 * Real.exp θ ^ 2| ≤ C * h ^ 5 := by
  have hsq : ∀ x : Unit → ℝ, HasFDerivAt (fun x : Unit → ℝ => x () ^ 2)
      ((2 * x ()) • ContinuousLinearMap.proj (R := ℝ) (φ := fun _ : Unit => ℝ) ()) x := by
    intro x
    have := ((ContinuousLinearMap.proj (R := ℝ) (φ := fun _ : Unit => ℝ) ()).hasFDerivAt (x := x)).pow 2
    simpa using this
  obtain ⟨D, hD, C, δ, hδ, H⟩ := C148_dopri5_gradients (κ := Unit) (f := fun p _ x i => p i * x i) (by fun_prop)
    (θ := fun _ => θ) (x0 := fun _ => x0) (ℓ := fun x => x () ^ 2) (by fun_prop) (t0 := 0) (T := 1) one_pos
    (fun q t _ => q.2 () * Real.exp (q.1 () * t))
    (Filter.Eventually.of_forall fun q => ⟨by funext i; simp, fun t _ => by
      refine hasDerivWithinAt_pi.2 fun i => ?_
      have h1 : HasDerivAt (fun t : ℝ => q.2 () * Real.exp (q.1 () * t)) (q.2 () * (Real.exp (q.1 () * t) * (q.1 () * 1))) t :=
        ((((hasDerivAt_id t).const_mul (q.1 ())).exp).const_mul (q.2 ()))
      refine h1.hasDerivWithinAt.congr_deriv ?_
      cases i
      ring⟩) () ()
  have hD1 : D (Pi.single () 1, 0) = 2 * x0 ^ 2 * Real.exp θ ^ 2 ∧ D (0, Pi.single () 1) = 2 * x0 * Real.exp θ ^ 2 := by
    have line : ∀ v w : ℝ, HasDerivAt (fun s : ℝ => ((x0 + s * w) * Real.exp ((θ + s * v) * 1)) ^ 2)
        (D (fun _ => v, fun _ => w)) 0 := by
      intro v w
      have hl : HasDerivAt (fun s : ℝ => (((fun _ => θ + s * v), (fun _ => x0 + s * w)) : (Unit → ℝ) × (Unit → ℝ)))
          (fun _ => v, fun _ => w) 0 := by
        refine HasDerivAt.prodMk (hasDerivAt_pi.2 fun _ => ?_) (hasDerivAt_pi.2 fun _ => ?_)
        · simpa using ((hasDerivAt_id (0 : ℝ)).mul_const v).const_add θ
        · simpa using ((hasDerivAt_id (0 : ℝ)).mul_const w).const_add x0
      have hD' : HasFDerivAt (fun q : (Unit → ℝ) × (Unit → ℝ) => (q.2 () * Real.exp (q.1 () * 1)) ^ 2) D
          ((fun s : ℝ => (((fun _ => θ + s * v), (fun _ => x0 + s * w)) : (Unit → ℝ) × (Unit → ℝ))) 0) := by
        simpa using hD
      exact hD'.comp_hasDerivAt 0 hl
    have val : ∀ v w : ℝ, HasDerivAt (fun s : ℝ => ((x0 + s * w) * Real.exp ((θ + s * v) * 1)) ^ 2)
        (2 * x0 * Real.exp θ ^ 2 * (w + x0 * v)) 0 := by
      intro v w
      have h1 : HasDerivAt (fun s : ℝ => x0 + s * w) w 0 := by simpa using ((hasDerivAt_id (0 : ℝ)).mul_const w).const_add x0
      have h2 : HasDerivAt (fun s : ℝ => (θ + s * v) * 1) v 0 := by
        simpa using ((hasDerivAt_id (0 : ℝ)).mul_const v).const_add θ
      refine ((h1.mul h2.exp).pow 2).congr_deriv ?_
      simp
      ring
    have e1 : (Pi.single () 1 : Unit → ℝ) = fun _ => 1 := by funext i; simp
    have e0 : (0 : Unit → ℝ) = fun _ => 0 := rfl
    rw [e1, e0, (line 1 0).unique (val 1 0), (line 0 1).unique (val 0 1)]
    constructor <;> ring
  refine ⟨C, δ, hδ, fun t1 rest h atol rtol h1 h2 h3 h4 h5 h6 => ?_⟩
  obtain ⟨fuel, sol, xT, μ, lam, d, d', -, g2, g3, g4, g5⟩ := H t1 rest h atol rtol atol rtol [] Finset.univ h1 h2 h3 h4 h5 h6 h5 h6
  obtain ⟨g6, g7⟩ := g3 fuel le_rfl
  refine ⟨fuel, sol, xT, μ, lam, d, d', g2, g6, ?_, ?_, ?_⟩
  · rw [← g7]
    congr 3
    funext i
    rw [(hsq xT).fderiv]
    simp
  · rw [← hD1.1]; convert g4 ()
  · rw [← hD1.2]; convert g5 ()

end main

end Torchdyn
