import Verif.Props.AdaptiveGradients

/-!
Property C154: `odeint` with `dopri5` returns and converges with fifth order, uniformly over all solutions in a bounded region
and over all initial states near them.
-/

set_option linter.unusedSectionVars false

namespace Torchdyn

open Spec Set

variable {ι A : Type} [Fintype ι]

/-- For every `R` there are `C` and `δ > 0` such that for all solutions `y` of `x' = f(t, x)` on intervals `[a, b]` inside
`[t0, T]` with `‖y‖ ≤ R`, all initial states within `δ` of `y a`, all increasing grids from `a` in `[a, b]` with gaps at most
`h ≤ δ` and all tolerances, `odeint` returns the grid with states that differ from `y` by at most
`C (h ^ p + ‖x0 - y a‖)`. -/
def AdaptiveUniform (p : ℕ) (solver : Solver (Except PyErr) ℝ (ι → ℝ) A) (args : A) (f : ℝ → (ι → ℝ) → ι → ℝ) (t0 T : ℝ) : Prop :=
  ∀ R : ℝ, ∃ C δ, 0 ≤ C ∧ 0 < δ ∧ ∀ (y : ℝ → ι → ℝ) (a b : ℝ), t0 ≤ a → b ≤ T →
    (∀ t ∈ Icc a b, HasDerivWithinAt y (f t (y t)) (Icc a b) t) → (∀ t ∈ Icc a b, ‖y t‖ ≤ R) →
    ∀ (x0 : ι → ℝ) (t1 : ℝ) (rest : List ℝ) (h atol rtol : ℝ) (saveAt : List ℝ) (sel : Finset ι), ‖x0 - y a‖ ≤ δ → h ≤ δ →
    Increasing (a :: t1 :: rest) → (∀ t ∈ a :: t1 :: rest, t ≤ b) → GapsAtMost h (a :: t1 :: rest) → 0 < atol → 0 ≤ rtol →
    ∃ fuel0 xs, (∀ fuel, fuel0 ≤ fuel → odeint fuel (pureField f) x0 (a :: t1 :: rest) solver atol rtol false false saveAt args
        sel = .ok (some (a :: t1 :: rest, xs))) ∧ xs.length = (a :: t1 :: rest).length ∧ xs[0]? = some x0 ∧
      ∀ (k : ℕ) (t : ℝ) (x : ι → ℝ), (a :: t1 :: rest)[k]? = some t → xs[k]? = some x →
        ‖x - y t‖ ≤ C * (h ^ p + ‖x0 - y a‖)

/-- The same for decreasing grids from `b`: the returned times are the negated ones (C21_times_backward), so the states are
compared at the requested times. -/
def AdaptiveUniformBackward (p : ℕ) (solver : Solver (Except PyErr) ℝ (ι → ℝ) A) (args : A) (f : ℝ → (ι → ℝ) → ι → ℝ)
    (t0 T : ℝ) : Prop :=
  ∀ R : ℝ, ∃ C δ, 0 ≤ C ∧ 0 < δ ∧ ∀ (y : ℝ → ι → ℝ) (a b : ℝ), t0 ≤ a → b ≤ T →
    (∀ t ∈ Icc a b, HasDerivWithinAt y (f t (y t)) (Icc a b) t) → (∀ t ∈ Icc a b, ‖y t‖ ≤ R) →
    ∀ (x0 : ι → ℝ) (t1 : ℝ) (rest : List ℝ) (h atol rtol : ℝ) (saveAt : List ℝ) (sel : Finset ι), ‖x0 - y b‖ ≤ δ → h ≤ δ →
    (b :: t1 :: rest).Pairwise (· > ·) → (∀ t ∈ b :: t1 :: rest, a ≤ t) →
    (∀ (k : ℕ) (t t' : ℝ), (b :: t1 :: rest)[k]? = some t → (b :: t1 :: rest)[k + 1]? = some t' → t - t' ≤ h) →
    0 < atol → 0 ≤ rtol →
    ∃ fuel0 xs, (∀ fuel, fuel0 ≤ fuel → odeint fuel (pureField f) x0 (b :: t1 :: rest) solver atol rtol false false saveAt args
        sel = .ok (some ((b :: t1 :: rest).map (fun t => -t), xs))) ∧ xs.length = (b :: t1 :: rest).length ∧
      xs[0]? = some x0 ∧
      ∀ (k : ℕ) (t : ℝ) (x : ι → ℝ), (b :: t1 :: rest)[k]? = some t → xs[k]? = some x →
        ‖x - y t‖ ≤ C * (h ^ p + ‖x0 - y b‖)

/-- Both directions of `odeint` at the level of the adaptive loop: it returns for every initial step, and accepted runs over the grid
stay near the solution. -/
theorem dopri5_uniform (f : ℝ → (ι → ℝ) → ι → ℝ) (hf : ContDiff ℝ 5 (fun p : ℝ × (ι → ℝ) => f p.1 p.2)) (t0 T : ℝ) (args : A)
    (R : ℝ) : ∃ C δ, 0 ≤ C ∧ 0 < δ ∧ ∀ (y : ℝ → ι → ℝ) (a b : ℝ), t0 ≤ a → b ≤ T →
    (∀ t ∈ Icc a b, HasDerivWithinAt y (f t (y t)) (Icc a b) t) → (∀ t ∈ Icc a b, ‖y t‖ ≤ R) →
    ∀ (x0 : ι → ℝ) (t1 : ℝ) (rest : List ℝ) (h atol rtol : ℝ) (sel : Finset ι), ‖x0 - y a‖ ≤ δ → h ≤ δ →
    Increasing (a :: t1 :: rest) → (∀ t ∈ a :: t1 :: rest, t ≤ b) → GapsAtMost h (a :: t1 :: rest) → 0 < atol → 0 ≤ rtol →
    (∀ dt, 0 < dt → ∃ fuel ts xs, adaptiveOdeint (odeintCfg (pureField f) (dopri5Solver (Except PyErr) ℝ (ι → ℝ) A) args atol
      rtol sel (odeintInterp (dopri5Solver (Except PyErr) ℝ (ι → ℝ) A) false) false) fuel (f a x0) x0 dt (a :: t1 :: rest) =
        .ok (some (ts, xs))) ∧
    ∀ xs : List (ι → ℝ), xs.length = (a :: t1 :: rest).length → xs[0]? = some x0 →
      (∀ (i : ℕ) t z t' z', (a :: t1 :: rest)[i]? = some t → xs[i]? = some z → (a :: t1 :: rest)[i + 1]? = some t' →
        xs[i + 1]? = some z' →
        Reached (dopri5Solver (Except PyErr) ℝ (ι → ℝ) A) args f sel atol rtol (t, z) (t', z')) →
      ∀ (k : ℕ) (t : ℝ) (x : ι → ℝ), (a :: t1 :: rest)[k]? = some t → xs[k]? = some x →
        ‖x - y t‖ ≤ C * (h ^ 5 + ‖x0 - y a‖) := by
  obtain ⟨C, Λ, δ, hC, hΛ, hδ, H⟩ := dopri5_one_step hf t0 T R
  obtain ⟨E, δe, hE, hδe, herr⟩ := rk_stages_ball (hf.of_le (by norm_num)) t0 T (R + 1)
    ((0 :: (constructDopri5 ℝ).c).zip (butcherRows (constructDopri5 ℝ))) (constructDopri5 ℝ).berr
  generalize hX : Real.exp (Λ * |T - t0|) = X
  have hX1 : 1 ≤ X := hX ▸ Real.one_le_exp (by positivity)
  have hQ : 0 < 4 * (X * (1 + C * |T - t0|)) := by positivity
  refine ⟨X * (1 + C * |T - t0|), min δ (min 1 (1 / (4 * (X * (1 + C * |T - t0|))))), by positivity,
    lt_min hδ (lt_min one_pos (div_pos one_pos hQ)), ?_⟩
  intro y a b h0a hbT hy hyR x0 t1 rest h atol rtol sel hx0 hh hinc hb hgap hat hrt
  have hs := dopri5_fsalSolver (ι := ι) args
  have h01 : a < t1 := (List.pairwise_cons.1 hinc).1 t1 (by simp)
  have h0 : 0 ≤ h := by linarith [hgap 0 a t1 rfl rfl]
  have d1 : h ≤ δ := hh.trans (min_le_left _ _)
  have d2 : h ≤ 1 := hh.trans ((min_le_right _ _).trans (min_le_left _ _))
  have d3 : h ≤ 1 / (4 * (X * (1 + C * |T - t0|))) := hh.trans ((min_le_right _ _).trans (min_le_right _ _))
  have d4 : ‖x0 - y a‖ ≤ 1 / (4 * (X * (1 + C * |T - t0|))) := hx0.trans ((min_le_right _ _).trans (min_le_right _ _))
  have hab : a ≤ b := hb a (by simp)
  set η := C * h ^ 5 with hη
  have hη0 : 0 ≤ η := by positivity
  have hn0 := norm_nonneg (x0 - y a)
  -- the bound of the error at time `t`
  have hbound : ∀ t, a ≤ t → t ≤ b → (‖x0 - y a‖ + η * (t - a)) * Real.exp (Λ * (t - a)) ≤
      X * (1 + C * |T - t0|) * (h ^ 5 + ‖x0 - y a‖) := by
    intro t ht0 htb
    have e1 : t - a ≤ |T - t0| := le_trans (by linarith) (le_abs_self _)
    have e2 : 0 ≤ t - a := by linarith
    have e3 : Real.exp (Λ * (t - a)) ≤ X := hX ▸ Real.exp_le_exp.2 (mul_le_mul_of_nonneg_left e1 hΛ)
    have e4 : ‖x0 - y a‖ + η * (t - a) ≤ (1 + C * |T - t0|) * (h ^ 5 + ‖x0 - y a‖) := by
      have f1 : η * (t - a) ≤ η * |T - t0| := mul_le_mul_of_nonneg_left e1 hη0
      have f2 : η * |T - t0| = C * |T - t0| * h ^ 5 := by rw [hη]; ring
      have f3 : 0 ≤ C * |T - t0| * ‖x0 - y a‖ := by positivity
      have f4 : 0 ≤ h ^ 5 := by positivity
      nlinarith
    calc _ ≤ (1 + C * |T - t0|) * (h ^ 5 + ‖x0 - y a‖) * X := mul_le_mul e4 e3 (Real.exp_nonneg _) (by positivity)
      _ = _ := by ring
  have hhalf : X * (1 + C * |T - t0|) * (h ^ 5 + ‖x0 - y a‖) ≤ 1 / 2 := by
    have e1 : h ^ 5 ≤ h := by simpa using pow_le_pow_of_le_one h0 d2 (show 1 ≤ 5 by norm_num)
    rw [le_div_iff₀ hQ] at d3 d4
    have e2 : 0 ≤ X * (1 + C * |T - t0|) := by positivity
    nlinarith
  have htube : ∀ t, a ≤ t → t ≤ b → (‖x0 - y a‖ + η * (t - a)) * Real.exp (Λ * (t - a)) ≤ 1 / 2 :=
    fun t h1 h2 => (hbound t h1 h2).trans hhalf
  have hone : ∀ t s x, a ≤ t → 0 ≤ s → s ≤ h → t + s ≤ b → ‖x - y t‖ ≤ 1 / 2 →
      ‖x + s • comb (constructDopri5 ℝ).bsol (rkStagesT f x t s
          ((0 :: (constructDopri5 ℝ).c).zip (butcherRows (constructDopri5 ℝ))) []) - y (t + s)‖ ≤
        (1 + Λ * s) * ‖x - y t‖ + η * s := by
    intro t s x h1 h2 h2' h3 h4
    have hsub : Icc t (t + s) ⊆ Icc a b := Icc_subset_Icc h1 h3
    refine (H y t s x (by linarith) h2 (by linarith) (by linarith)
      (fun u hu => ⟨(hy u (hsub hu)).mono hsub, hyR u (hsub hu)⟩) (by linarith)).trans (add_le_add le_rfl ?_)
    calc C * s ^ (5 + 1) = C * s ^ 5 * s := by ring
      _ ≤ C * h ^ 5 * s := by gcongr
  have hgrow : ∀ t s e e', a ≤ t → 0 ≤ s → e ≤ (‖x0 - y a‖ + η * (t - a)) * Real.exp (Λ * (t - a)) →
      e' ≤ (e + η * s) * Real.exp (Λ * s) → e' ≤ (‖x0 - y a‖ + η * (t + s - a)) * Real.exp (Λ * (t + s - a)) := by
    intro t s e e' h1 h2 h3 h4
    have c2 : Real.exp (Λ * (t + s - a)) = Real.exp (Λ * (t - a)) * Real.exp (Λ * s) := by
      rw [← Real.exp_add]; congr 1; ring
    have c3 : 1 ≤ Real.exp (Λ * (t - a)) := Real.one_le_exp (mul_nonneg hΛ (by linarith))
    have c4 : 0 ≤ η * s := by positivity
    have c5 : e + η * s ≤ (‖x0 - y a‖ + η * (t + s - a)) * Real.exp (Λ * (t - a)) := by nlinarith
    calc e' ≤ _ := h4
      _ ≤ _ := mul_le_mul_of_nonneg_right c5 (Real.exp_nonneg _)
      _ = _ := by rw [c2]; ring
  obtain ⟨Tl, hTl⟩ : ∃ Tl, (t1 :: rest).getLast? = some Tl := ⟨_, List.getLast?_eq_some_getLast (by simp)⟩
  have hTlm : Tl ∈ t1 :: rest := List.mem_of_getLast? hTl
  have hTlb : Tl ≤ b := hb Tl (List.mem_cons_of_mem _ hTlm)
  set δs := min δe (atol / (2 * (E + 1))) with hδs
  refine ⟨fun dt hdt => adaptive_terminates_good hs (by norm_num [dopri5Solver]) rfl rfl rfl f hinc hTl atol rtol
    (odeintInterp (dopri5Solver (Except PyErr) ℝ (ι → ℝ) A) false) false sel (δ := δs) (lt_min hδe (by positivity))
    (fun x t k => k = f t x ∧ ‖x - y t‖ ≤ (‖x0 - y a‖ + η * (t - a)) * Real.exp (Λ * (t - a)))
    (by
      rintro x t dt k1 x' e st ⟨rfl, hx⟩ ht0 hdt hle hnext hst
      refine ⟨rfl, ?_⟩
      obtain ⟨c, hc, hc1, hc2⟩ := exists_next a (t1 :: rest) hinc hgap ht0 ⟨Tl, hTlm, by linarith⟩
      have hdth : dt ≤ h := by
        have := hnext rfl c hc hc1
        linarith
      rw [hs.first_stage] at hst
      have hx' := dopri5_step_rk f x t dt hst
      have b4 : ‖x' - y (t + dt)‖ ≤ (1 + Λ * dt) * ‖x - y t‖ + η * dt := by
        rw [hx']
        exact hone t dt x ht0 hdt.le hdth (by linarith) (hx.trans (htube t ht0 (by linarith)))
      refine hgrow t dt _ _ ht0 hdt.le hx (b4.trans ?_)
      have c1 : 1 + Λ * dt ≤ Real.exp (Λ * dt) := by linarith [Real.add_one_le_exp (Λ * dt)]
      have c2 : 1 ≤ Real.exp (Λ * dt) := Real.one_le_exp (mul_nonneg hΛ hdt.le)
      have c3 : 0 ≤ η * dt := mul_nonneg hη0 hdt.le
      have c4 := mul_le_mul_of_nonneg_right c1 (norm_nonneg (x - y t))
      nlinarith)
    (by
      rintro x t dt k1 k x' e st ⟨rfl, hx⟩ ht0 htT hdt hle hst
      rw [hs.first_stage] at hst
      have he := dopri5_step_err f x t dt hst
      have hxR : ‖x‖ ≤ R + 1 := by
        have h1 := hx.trans (htube t ht0 (by linarith))
        have h2 := hyR t ⟨ht0, by linarith⟩
        have h3 : ‖x‖ ≤ ‖x - y t‖ + ‖y t‖ := by simpa using norm_add_le (x - y t) (y t)
        linarith
      have hb := herr t dt x (by linarith) (by linarith) hdt.le (hle.trans (min_le_left _ _)) hxR
      have hb' : ∀ i, |e i| ≤ E * dt := by
        intro i
        refine (norm_le_pi_norm e i).trans ?_
        rw [he, norm_smul, Real.norm_of_nonneg hdt.le, mul_comm]
        exact mul_le_mul_of_nonneg_right hb hdt.le
      refine lt_of_le_of_lt (errorNorm_le sel atol rtol hat hrt x x' _ (E * dt) (by positivity) hb') ?_
      rw [div_lt_one hat]
      have e1 : (E + 1) * dt ≤ (E + 1) * (atol / (2 * (E + 1))) :=
        mul_le_mul_of_nonneg_left (hle.trans (min_le_right _ _)) (by positivity)
      have e2 : (E + 1) * (atol / (2 * (E + 1))) = atol / 2 := by field_simp
      rw [e2] at e1
      linarith)
    (f a x0) x0 ⟨rfl, by simp⟩ hdt, ?_⟩
  intro xs hlen hx0' hch
  have hage : ∀ t ∈ a :: t1 :: rest, a ≤ t := by
    intro t ht
    rcases List.mem_cons.1 ht with rfl | hm
    · exact le_rfl
    · exact ((List.pairwise_cons.1 hinc).1 t hm).le
  have key : ∀ (k : ℕ) (t : ℝ) (x : ι → ℝ), (a :: t1 :: rest)[k]? = some t → xs[k]? = some x →
      ‖x - y t‖ ≤ (‖x0 - y a‖ + η * (t - a)) * Real.exp (Λ * (t - a)) := by
    intro k
    induction k with
    | zero =>
      intro t x ht hx
      rw [hx0'] at hx
      simp only [List.getElem?_cons_zero, Option.some.injEq] at ht hx
      subst ht hx
      simp
    | succ k ih =>
      intro t' x' ht' hx'
      have hk : k + 1 < (a :: t1 :: rest).length := (List.getElem?_eq_some_iff.1 ht').1
      obtain ⟨t, ht⟩ : ∃ t, (a :: t1 :: rest)[k]? = some t := ⟨_, List.getElem?_eq_getElem (by omega)⟩
      obtain ⟨x, hx⟩ : ∃ x, xs[k]? = some x := ⟨_, List.getElem?_eq_getElem (by omega)⟩
      have htt : t < t' := by
        have := List.pairwise_iff_getElem.1 hinc k (k + 1) (by omega) hk (by omega)
        obtain ⟨_, rfl⟩ := List.getElem?_eq_some_iff.1 ht
        obtain ⟨_, rfl⟩ := List.getElem?_eq_some_iff.1 ht'
        exact this
      have hat' := hage t (List.mem_of_getElem? ht)
      have htb := hb t' (List.mem_of_getElem? ht')
      have hg := hgap k t t' ht ht'
      have hI := ih t x ht hx
      have e1 : t + (t' - t) = t' := by ring
      have hpre : (‖x - y t‖ + η * (t' - t)) * Real.exp (Λ * (t' - t)) ≤ 1 / 2 := by
        have h1 := hgrow t (t' - t) _ _ hat' (by linarith) hI le_rfl
        rw [e1] at h1
        exact h1.trans (htube t' (by linarith) htb)
      have h2 := (reached_error_from (y := y) hΛ hη0 (fun x t s k x' e st hst => dopri5_step_rk f x t s hst)
        (fun u s x h1 h2 h3 h4 => hone u s x (by linarith) h2 (by linarith) (by linarith) h4) hpre
        (hch k t x t' x' ht hx ht' hx') le_rfl).2
      have h3 := hgrow t (t' - t) _ _ hat' (by linarith) hI h2
      rw [e1] at h3
      exact h3
  intro k t x ht hx
  exact (key k t x ht hx).trans (hbound t (hage t (List.mem_of_getElem? ht)) (hb t (List.mem_of_getElem? ht)))

/-- **C154.** `dopri5` returns and converges with fifth order, uniformly over all solutions in a bounded region. -/
theorem C154_dopri5 (f : ℝ → (ι → ℝ) → ι → ℝ) (hf : ContDiff ℝ 5 (fun p : ℝ × (ι → ℝ) => f p.1 p.2)) (t0 T : ℝ) (args : A) :
    AdaptiveUniform 5 (dopri5Solver (Except PyErr) ℝ (ι → ℝ) A) args f t0 T := by
  intro R
  obtain ⟨C, δ, hC, hδ, H⟩ := dopri5_uniform f hf t0 T args R
  refine ⟨C, δ, hC, hδ, ?_⟩
  intro y a b h0a hbT hy hyR x0 t1 rest h atol rtol saveAt sel hx0 hh hinc hb hgap hat hrt
  obtain ⟨H1, H2⟩ := H y a b h0a hbT hy hyR x0 t1 rest h atol rtol sel hx0 hh hinc hb hgap hat hrt
  have hs := dopri5_fsalSolver (ι := ι) args
  have h01 : a < t1 := (List.pairwise_cons.1 hinc).1 t1 (by simp)
  obtain ⟨dt, hdt, hinit, -⟩ := odeint_forward 0 f x0 rest (dopri5Solver (Except PyErr) ℝ (ι → ℝ) A) hs.adaptive atol rtol
    false false saveAt args sel h01.le
  obtain ⟨fuel, ts, xs, hrun⟩ := H1 dt hdt
  obtain ⟨dt', _, hinit', e⟩ := odeint_forward fuel f x0 rest (dopri5Solver (Except PyErr) ℝ (ι → ℝ) A) hs.adaptive atol
    rtol false false saveAt args sel h01.le
  rw [hinit] at hinit'
  cases hinit'
  have hrun' : odeint fuel (pureField f) x0 (a :: t1 :: rest) (dopri5Solver (Except PyErr) ℝ (ι → ℝ) A) atol rtol false false
      saveAt args sel = .ok (some (ts, xs)) := by rw [e]; exact hrun
  obtain ⟨r, hr, h21⟩ := C21_times hs f x0 a t1 rest hinc atol rtol false saveAt sel fuel
  rw [hrun'] at hr
  obtain ⟨hts, hlen, hx0'⟩ := h21 ts xs (Except.ok.inj hr).symm
  subst hts
  obtain ⟨-, -, -, hch⟩ := C22_accepted hs f x0 a t1 rest hinc atol rtol false false (Or.inl rfl) saveAt sel fuel _ xs hrun'
  exact ⟨fuel, xs, fun fuel' hle => C21_fuel_irrelevant hs f x0 a t1 rest atol rtol false false saveAt sel fuel fuel' hle _ hrun',
    hlen, hx0', H2 xs hlen hx0' hch⟩

/-- **C154.** The same over decreasing grids. -/
theorem C154_dopri5_backward (f : ℝ → (ι → ℝ) → ι → ℝ) (hf : ContDiff ℝ 5 (fun p : ℝ × (ι → ℝ) => f p.1 p.2)) (t0 T : ℝ)
    (args : A) : AdaptiveUniformBackward 5 (dopri5Solver (Except PyErr) ℝ (ι → ℝ) A) args f t0 T := by
  intro R
  obtain ⟨C, δ, hC, hδ, H⟩ := dopri5_uniform (fun t x => -f (-t) x)
    (ContDiff.neg (hf.comp ((contDiff_fst.neg).prodMk contDiff_snd))) (-T) (-t0) args R
  refine ⟨C, δ, hC, hδ, ?_⟩
  intro y a b h0a hbT hy hyR x0 t1 rest h atol rtol saveAt sel hx0 hh hdec hb hgap hat hrt
  have hmap : -b :: -t1 :: rest.map (fun t => -t) = (b :: t1 :: rest).map (fun t => -t) := rfl
  obtain ⟨H1, H2⟩ := H (fun s => y (-s)) (-b) (-a) (by linarith) (by linarith) (SolvesOn.reverse hy)
    (fun s hs => hyR (-s) ⟨by linarith [hs.2], by linarith [hs.1]⟩) x0 (-t1) (rest.map fun t => -t) h atol rtol sel
    (by simpa using hx0) hh (increasing_neg hdec)
    (by
      rw [hmap]
      intro t ht
      obtain ⟨s, hs, rfl⟩ := List.mem_map.1 ht
      exact neg_le_neg (hb s hs))
    (by
      rw [hmap]
      intro k t t' hk hk'
      rw [List.getElem?_map, Option.map_eq_some_iff] at hk hk'
      obtain ⟨s, hs, rfl⟩ := hk
      obtain ⟨s', hs', rfl⟩ := hk'
      linarith [hgap k s s' hs hs']) hat hrt
  have hs := dopri5_fsalSolver (ι := ι) args
  have h01 : t1 < b := (List.pairwise_cons.1 hdec).1 t1 (by simp)
  obtain ⟨dt, hdt, hback⟩ := odeint_backward_dt f x0 rest (dopri5Solver (Except PyErr) ℝ (ι → ℝ) A) hs.adaptive atol rtol false
    false saveAt args sel h01
  obtain ⟨fuel, ts, xs, hrun⟩ := H1 dt hdt
  have hrun' : odeint fuel (pureField f) x0 (b :: t1 :: rest) (dopri5Solver (Except PyErr) ℝ (ι → ℝ) A) atol rtol false false
      saveAt args sel = .ok (some (ts, xs)) := by rw [hback fuel]; exact hrun
  obtain ⟨r, hr, h21⟩ := C21_times_backward hs f x0 b t1 rest hdec atol rtol false saveAt sel fuel
  rw [hrun'] at hr
  obtain ⟨hts, hlen, hx0'⟩ := h21 ts xs (Except.ok.inj hr).symm
  subst hts
  obtain ⟨-, -, -, hch⟩ := C22_accepted_backward hs f x0 b t1 rest hdec atol rtol false false (Or.inl rfl) saveAt sel fuel _ xs hrun'
  refine ⟨fuel, xs, fun fuel' hle => C21_fuel_irrelevant hs f x0 b t1 rest atol rtol false false saveAt sel fuel fuel' hle _ hrun',
    by simpa using hlen, hx0', ?_⟩
  intro k t x hk hx
  have := H2 xs (by simpa using hlen) hx0' hch k (-t) x (by rw [hmap, List.getElem?_map, hk]; rfl) hx
  simpa using this

/-- **C153.** A round trip with `dopri5` (positive tolerances, any seminorm selection) returns in both directions and recovers
the states to fifth order in the gaps of the grid. -/
theorem C153_dopri5 (f : ℝ → (ι → ℝ) → ι → ℝ) (hf : ContDiff ℝ 5 (fun p : ℝ × (ι → ℝ) => f p.1 p.2)) (t0 T : ℝ) (args : A)
    (R : ℝ) : ∃ C δ, 0 < δ ∧ ∀ (y : ℝ → ι → ℝ) (a b : ℝ), t0 ≤ a → b ≤ T →
    (∀ t ∈ Icc a b, HasDerivWithinAt y (f t (y t)) (Icc a b) t) → (∀ t ∈ Icc a b, ‖y t‖ ≤ R) →
    ∀ (t1 : ℝ) (rest : List ℝ) (h atol rtol : ℝ) (saveAt : List ℝ) (sel : Finset ι), h ≤ δ →
    Increasing (a :: t1 :: rest) → (∀ t ∈ a :: t1 :: rest, t ≤ b) → GapsAtMost h (a :: t1 :: rest) → 0 < atol → 0 ≤ rtol →
    ∃ fuel0 sol z sol', (∀ fuel, fuel0 ≤ fuel →
        odeint fuel (pureField f) (y a) (a :: t1 :: rest) (dopri5Solver (Except PyErr) ℝ (ι → ℝ) A) atol rtol false false saveAt
          args sel = .ok (some (a :: t1 :: rest, sol)) ∧
        odeint fuel (pureField f) z (a :: t1 :: rest).reverse (dopri5Solver (Except PyErr) ℝ (ι → ℝ) A) atol rtol false false
          saveAt args sel = .ok (some ((a :: t1 :: rest).reverse.map (fun t => -t), sol'))) ∧
      sol.getLast? = some z ∧ sol.length = (a :: t1 :: rest).length ∧ sol'.length = (a :: t1 :: rest).length ∧
      ∀ (k : ℕ) (x x' : ι → ℝ), sol[k]? = some x → sol'.reverse[k]? = some x' → ‖x' - x‖ ≤ C * h ^ 5 := by
  obtain ⟨C1, δ1, hC1, hδ1, H1⟩ := C154_dopri5 f hf t0 T args R
  obtain ⟨C2, δ2, hC2, hδ2, H2⟩ := C154_dopri5_backward f hf t0 T args R
  refine ⟨C2 * (1 + C1) + C1, min (min δ1 δ2) (min 1 (δ2 / (C1 + 1))), by positivity, ?_⟩
  intro y a b h0a hbT hy hyR t1 rest h atol rtol saveAt sel hh hmono hT hgap hat hrt
  have hh1 : h ≤ δ1 := hh.trans ((min_le_left _ _).trans (min_le_left _ _))
  have hh2 : h ≤ δ2 := hh.trans ((min_le_left _ _).trans (min_le_right _ _))
  have hh3 : h ≤ 1 := hh.trans ((min_le_right _ _).trans (min_le_left _ _))
  have hh4 : h ≤ δ2 / (C1 + 1) := hh.trans ((min_le_right _ _).trans (min_le_right _ _))
  have h01 : a < t1 := (List.pairwise_cons.1 hmono).1 t1 (by simp)
  have hh0 : 0 < h := by
    have := hgap 0 a t1 (by simp) (by simp)
    linarith
  have hhp : h ^ 5 ≤ h := by simpa using pow_le_pow_of_le_one hh0.le hh3 (show 1 ≤ 5 by norm_num)
  have hhp0 : 0 ≤ h ^ 5 := by positivity
  obtain ⟨fuel1, sol, hrun, hlen, -, herr⟩ := H1 y a b h0a hbT hy hyR (y a) t1 rest h atol rtol saveAt sel
    (by simpa using hδ1.le) hh1 hmono hT hgap hat hrt
  simp only [sub_self, norm_zero, add_zero] at herr
  generalize hl : a :: t1 :: rest = l at *
  have hl2 : 2 ≤ l.length := by rw [← hl]; simp
  obtain ⟨u, v, r, hr⟩ : ∃ u v r, l.reverse = u :: v :: r := by
    match hq : l.reverse with
    | [] =>
      have := congrArg List.length hq
      rw [List.length_reverse] at this
      simp only [List.length_nil] at this
      omega
    | [_] =>
      have := congrArg List.length hq
      rw [List.length_reverse] at this
      simp only [List.length_cons, List.length_nil] at this
      omega
    | u :: v :: r => exact ⟨u, v, r, rfl⟩
  have hrev : ∀ k, k < l.length → l.reverse[l.length - 1 - k]? = l[k]? := by
    intro k hk
    rw [List.getElem?_reverse (by omega)]
    congr 1
    omega
  have hu : l[l.length - 1]? = some u := by
    have := hrev (l.length - 1) (by omega)
    rw [← this, hr]
    simp
  have hmem : ∀ t, t ∈ u :: v :: r ↔ t ∈ l := by intro t; rw [← hr]; simp
  have hage : ∀ t ∈ l, a ≤ t := by
    intro t ht
    rw [← hl] at ht hmono
    rcases List.mem_cons.1 ht with rfl | hm
    · exact le_rfl
    · exact ((List.pairwise_cons.1 hmono).1 t hm).le
  have hub : u ≤ b := hT u ((hmem u).1 (by simp))
  obtain ⟨z, hz⟩ : ∃ z, sol[l.length - 1]? = some z := ⟨_, List.getElem?_eq_getElem (by omega)⟩
  have hzu := herr _ u z hu hz
  have hz2 : ‖z - y u‖ ≤ δ2 := by
    have h1 : (C1 + 1) * h ≤ δ2 := by
      rw [le_div_iff₀ (by positivity)] at hh4
      linarith
    have h2 := mul_le_mul_of_nonneg_left hhp hC1
    nlinarith
  have hsub : Icc a u ⊆ Icc a b := Icc_subset_Icc le_rfl hub
  obtain ⟨fuel2, sol', hrun', hlen', -, herr'⟩ := H2 y a u h0a (by linarith) (fun t ht => (hy t (hsub ht)).mono hsub)
    (fun t ht => hyR t (hsub ht)) z v r h atol rtol saveAt sel hz2 hh2
    (by
      rw [← hr, List.pairwise_reverse]
      exact hmono)
    (fun t ht => hage t ((hmem t).1 ht))
    (by
      rw [← hr]
      intro k s s' hs hs'
      have hk1 : k + 1 < l.length := by simpa using (List.getElem?_eq_some_iff.1 hs').1
      rw [List.getElem?_reverse (by omega)] at hs hs'
      exact hgap (l.length - 1 - (k + 1)) s' s hs' (by rw [← hs]; congr 1; omega))
    hat hrt
  rw [← hr] at hrun' hlen' herr'
  rw [List.length_reverse] at hlen'
  refine ⟨max fuel1 fuel2, sol, z, sol', fun fuel hf => ⟨hrun fuel ((le_max_left _ _).trans hf),
    hrun' fuel ((le_max_right _ _).trans hf)⟩, ?_, hlen, hlen', ?_⟩
  · rw [List.getLast?_eq_getElem?, hlen, hz]
  · intro k x x' hx hx'
    have hk : k < l.length := hlen ▸ (List.getElem?_eq_some_iff.1 hx).1
    obtain ⟨t, ht⟩ : ∃ t, l[k]? = some t := ⟨_, List.getElem?_eq_getElem hk⟩
    have e1 := herr k t x ht hx
    rw [List.getElem?_reverse (by omega), hlen'] at hx'
    have e2 := herr' (l.length - 1 - k) t x' (by rw [hrev k hk, ht]) hx'
    have e3 : ‖x' - x‖ ≤ ‖x' - y t‖ + ‖x - y t‖ := by
      rw [norm_sub_rev x]
      exact norm_sub_le_norm_sub_add_norm_sub _ _ _
    have e4 := mul_le_mul_of_nonneg_left hzu hC2
    nlinarith

/-- Non-vacuity: `x' = x²`, with solutions on `[0, 1/2]`: one `C` and `δ` for all solutions `x0 / (1 - x0 t)` with
`0 ≤ x0 ≤ 1`. -/
example : ∃ C δ : ℝ, 0 < δ ∧ ∀ x0 ∈ Icc (0 : ℝ) 1, ∀ (t1 : ℝ) (rest : List ℝ) (h atol rtol : ℝ) (saveAt : List ℝ)
    (sel : Finset (Fin 1)), h ≤ δ → Increasing (0 :: t1 :: rest) → (∀ t ∈ 0 :: t1 :: rest, t ≤ 1 / 2) →
    GapsAtMost h (0 :: t1 :: rest) → 0 < atol → 0 ≤ rtol →
    ∃ fuel0 xs, (∀ fuel, fuel0 ≤ fuel → odeint fuel (pureField fun _ x i => x i ^ 2) (fun _ => x0) (0 :: t1 :: rest)
        (dopri5Solver (Except PyErr) ℝ (Fin 1 → ℝ) Unit) atol rtol false false saveAt () sel =
          .ok (some (0 :: t1 :: rest, xs))) ∧
      ∀ (k : ℕ) (t : ℝ) (x : Fin 1 → ℝ), (0 :: t1 :: rest)[k]? = some t → xs[k]? = some x →
        ‖x - fun _ => x0 * (1 - x0 * t)⁻¹‖ ≤ C * h ^ 5 := by
  obtain ⟨C, δ, -, hδ, H⟩ := C154_dopri5 (ι := Fin 1) (fun _ x i => x i ^ 2)
    (contDiff_pi.2 fun i => ((contDiff_apply ℝ ℝ i).comp contDiff_snd).pow 2) 0 (1 / 2) () 2
  refine ⟨C, δ, hδ, fun x0 hx0 t1 rest h atol rtol saveAt sel hh hinc hT hgap hat hrt => ?_⟩
  have hpos : ∀ t ∈ Icc (0 : ℝ) (1 / 2), 1 / 2 ≤ 1 - x0 * t := by
    intro t ht
    have := mul_le_mul hx0.2 ht.2 ht.1 zero_le_one
    linarith
  obtain ⟨fuel, xs, h1, -, -, h4⟩ := H (fun t _ => x0 * (1 - x0 * t)⁻¹) 0 (1 / 2) le_rfl le_rfl
    (fun t ht => by
      refine hasDerivWithinAt_pi.2 fun i => ?_
      have h0 : (1 - x0 * t) ≠ 0 := by linarith [hpos t ht]
      have h1 := (((((hasDerivAt_id t).const_mul x0).const_sub 1).inv h0).const_mul x0).hasDerivWithinAt (s := Icc 0 (1 / 2))
      refine h1.congr_deriv ?_
      simp only [id, mul_one, neg_neg]
      field_simp)
    (fun t ht => by
      have hp := hpos t ht
      refine (pi_norm_le_iff_of_nonneg (by norm_num)).2 fun _ => ?_
      have h2 : (1 - x0 * t)⁻¹ ≤ 2 := by
        rw [inv_le_comm₀ (by linarith) (by norm_num)]
        linarith
      have h3 : 0 ≤ (1 - x0 * t)⁻¹ := inv_nonneg.2 (by linarith)
      rw [Real.norm_of_nonneg (mul_nonneg hx0.1 h3)]
      nlinarith [hx0.1, hx0.2])
    (fun _ => x0) t1 rest h atol rtol saveAt sel
    (by
      have e : (fun _ : Fin 1 => x0) - (fun _ : Fin 1 => x0 * (1 - x0 * 0)⁻¹) = 0 := by funext; simp
      rw [e, norm_zero]
      exact hδ.le) hh hinc hT hgap hat hrt
  refine ⟨fuel, xs, h1, fun k t x hk hx => ?_⟩
  have := h4 k t x hk hx
  have e : (fun _ : Fin 1 => x0) - (fun _ : Fin 1 => x0 * (1 - x0 * 0)⁻¹) = 0 := by funext; simp
  rw [e, norm_zero, add_zero] at this
  exact this

end Torchdyn
