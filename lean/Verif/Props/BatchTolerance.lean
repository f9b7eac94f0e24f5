import Verif.Spec.BatchTolerance
import Verif.Spec.Hybrid
import Verif.Proofs.QuietRun
import Verif.Props.Seminorm
import Verif.Props.Tolerance

/-!
C151: the tolerances of adaptive `odeint` and the samples of a batch.
-/

set_option linter.unusedSectionVars false

namespace Torchdyn

open Spec

variable {A : Type}

theorem libSolver_fsalSolver {ι : Type} [Fintype ι] (tsit : Bool) (args : A) : FsalSolver (libSolver tsit ι A) args := by
  cases tsit
  · exact dopri5_fsalSolver args
  · exact tsit5_fsalSolver args

theorem libSolver_errorLinear {ι : Type} [Fintype ι] (tsit : Bool) (args : A) : ∃ E, ErrorLinear (libSolver tsit ι A) args E := by
  cases tsit
  · exact dopri5_errorLinear args
  · exact tsit5_errorLinear args

theorem libSolver_zero_step {ι : Type} [Fintype ι] (tsit : Bool) (args : A) (x : ι → ℝ) (t dt : ℝ) (k x' e : ι → ℝ) (st : List (ι → ℝ))
    (h : (libSolver tsit ι A).step (fun _ _ => .ok fun _ => 0) x t dt none args = .ok (.four k x' e st)) : x' = x := by
  cases tsit
  · exact rk7_zero_field (constructDopri5 ℝ) x t dt args k x' e st h
  · exact rk7_zero_field (constructTsit5 ℝ) x t dt args k x' e st h

/-! ### What is guaranteed for a sample -/

section share

variable {β κ : Type} [Fintype β] [Fintype κ]

/-- A step of a batch is a step of each sample. -/
theorem step_sample (tsit : Bool) (args : A) (g : β → ℝ → (κ → ℝ) → (κ → ℝ)) (b : β) (y : β × κ → ℝ) (t dt : ℝ)
    (k y' e : β × κ → ℝ) (st : List (β × κ → ℝ))
    (h : (libSolver tsit (β × κ) A).step (fun t x => .ok (batchField g t x)) y t dt none args = .ok (.four k y' e st)) :
    (libSolver tsit κ A).step (fun t x => .ok (g b t x)) (sample b y) t dt none args =
      .ok (.four (sample b k) (sample b y') (sample b e) (st.map (sample b))) := by
  rw [← (libSolver_fsalSolver tsit args).first_stage] at h ⊢
  have := libSolver_step (A := A) tsit (LinearMap.funLeft ℝ ℝ (fun i : κ => (b, i))) (batchField g) (g b) (fun _ _ => rfl) y t dt
    (batchField g t y) args
  refine Eq.trans this ?_
  have h' : (libSolver tsit (β × κ) A).step (pureField (batchField g)) y t dt (some (batchField g t y)) args =
    .ok (.four k y' e st) := h
  rw [h']
  rfl

/-- The norm of a sample is at most the square root of the size of the batch times that of the batch. -/
theorem errorNorm_sample (atol rtol : ℝ) (x x' e : β × κ → ℝ) (h : errorNorm Finset.univ atol rtol x x' e ≤ 1) (b : β) :
    errorNorm Finset.univ (Real.sqrt (Fintype.card β) * atol) (Real.sqrt (Fintype.card β) * rtol) (sample b x) (sample b x')
      (sample b e) ≤ 1 := by
  classical
  have hn : (0 : ℝ) < Fintype.card β := by
    have : 0 < Fintype.card β := Fintype.card_pos_iff.2 ⟨b⟩
    exact_mod_cast this
  have hs := Real.sq_sqrt hn.le
  unfold errorNorm at h ⊢
  have h1 := Real.sqrt_le_one.1 h
  refine Real.sqrt_le_one.2 ?_
  rcases Nat.eq_zero_or_pos (Fintype.card κ) with h0 | h0
  · simp [Finset.card_univ, h0]
  have hm : (0 : ℝ) < Fintype.card κ := by exact_mod_cast h0
  rw [Finset.card_univ, Fintype.card_prod, Nat.cast_mul, div_le_one (by positivity)] at h1
  rw [Finset.card_univ, div_le_one hm]
  have h2 : ∑ i, (e (b, i) / (atol + rtol * max |x (b, i)| |x' (b, i)|)) ^ 2 ≤ Fintype.card β * Fintype.card κ := by
    refine le_trans ?_ h1
    rw [Fintype.sum_prod_type]
    exact Finset.single_le_sum (f := fun b => ∑ i, (e (b, i) / (atol + rtol * max |x (b, i)| |x' (b, i)|)) ^ 2)
      (fun b _ => Finset.sum_nonneg fun i _ => sq_nonneg _) (Finset.mem_univ b)
  have h3 : ∀ i : κ, (sample b e i / (Real.sqrt (Fintype.card β) * atol + Real.sqrt (Fintype.card β) * rtol *
      max |sample b x i| |sample b x' i|)) ^ 2 =
        (e (b, i) / (atol + rtol * max |x (b, i)| |x' (b, i)|)) ^ 2 / Fintype.card β := by
    intro i
    have : Real.sqrt (Fintype.card β) * atol + Real.sqrt (Fintype.card β) * rtol * max |sample b x i| |sample b x' i| =
        Real.sqrt (Fintype.card β) * (atol + rtol * max |x (b, i)| |x' (b, i)|) := by
      simp only [sample]; ring
    rw [this, div_pow, mul_pow, hs, div_pow, div_div, mul_comm]
    rfl
  rw [Finset.sum_congr rfl fun i _ => h3 i, ← Finset.sum_div, div_le_iff₀ hn]
  linarith

/-- **C151 (partial).** What the tolerances mean for one sample of a batch of `n` independent systems integrated by `dopri5` or
`tsit5`: every state returned for the sample is reached by consecutive steps of the sample alone that are within the tolerances
`√n * atol`, `√n * rtol`. Missing: the tolerances `atol`, `rtol` themselves; the factor grows without bound
(`C151_dilution_refuted`). -/
theorem C151_sample_partial (tsit : Bool) (args : A) (g : β → ℝ → (κ → ℝ) → (κ → ℝ)) (x : β × κ → ℝ) (t0 t1 : ℝ)
    (rest : List ℝ) (hinc : Increasing (t0 :: t1 :: rest)) (atol rtol : ℝ) (ui rae : Bool) (hi : ui = false ∨ tsit = true)
    (saveAt : List ℝ) (fuel : ℕ) (ts : List ℝ) (xs : List (β × κ → ℝ))
    (h : odeint fuel (pureField (batchField g)) x (t0 :: t1 :: rest) (libSolver tsit (β × κ) A) atol rtol ui rae saveAt args
      Finset.univ = .ok (some (ts, xs))) (b : β) :
    ∀ (j : ℕ) t y, ts[j]? = some t → xs[j]? = some y →
      Reached (libSolver tsit κ A) args (g b) Finset.univ (Real.sqrt (Fintype.card β) * atol)
        (Real.sqrt (Fintype.card β) * rtol) (t0, fun i => x (b, i)) (t, fun i => y (b, i)) := by
  have hi' : ui = false ∨ (libSolver tsit (β × κ) A).isTsit5 = true := hi.imp id (by rintro rfl; rfl)
  obtain ⟨h0, h0', hlen, hstep⟩ := C22_accepted (libSolver_fsalSolver tsit args) (batchField g) x t0 t1 rest hinc atol rtol ui rae
    hi' saveAt Finset.univ fuel ts xs h
  intro j
  induction j with
  | zero =>
    intro t y ht hy
    rw [h0] at ht; rw [h0'] at hy
    cases ht; cases hy
    exact .refl
  | succ j ih =>
    intro t' y' ht' hy'
    obtain ⟨hj, -⟩ := List.getElem?_eq_some_iff.1 hy'
    have e1 := List.getElem?_eq_getElem (l := xs) (i := j) (by omega)
    have e2 := List.getElem?_eq_getElem (l := ts) (i := j) (by omega)
    refine (ih _ _ e2 e1).trans ?_
    refine Relation.ReflTransGen.lift (fun p : Point (β × κ) => ((p.1, fun i => p.2 (b, i)) : Point κ)) ?_ _ _
      (hstep j _ _ t' y' e2 e1 ht' hy')
    rintro p q ⟨hlt, k, e, st, hs, hn⟩
    exact ⟨hlt, _, _, _, step_sample tsit args g b p.2 p.1 (q.1 - p.1) k q.2 e st hs, errorNorm_sample atol rtol p.2 q.2 e hn b⟩

end share

/-! ### Dilution -/

section dilution

variable {κ : Type} [Fintype κ]

theorem hairer_diluted {N : ℕ} (v : Fin (N + 1) × κ → ℝ) (B : ℝ) (hB : 0 ≤ B) (h0 : ∀ i, |v (0, i)| ≤ B)
    (h : ∀ b, b ≠ 0 → ∀ i, v (b, i) = 0) : hairerNormOn Finset.univ v ≤ B / Real.sqrt (N + 1) := by
  have hN : (0 : ℝ) < N + 1 := by positivity
  unfold hairerNormOn
  have hsum : ∑ p, |v p| ^ 2 = ∑ i, |v (0, i)| ^ 2 := by
    rw [Fintype.sum_prod_type]
    refine Finset.sum_eq_single 0 (fun b _ hb => Finset.sum_eq_zero fun i _ => by rw [h b hb i]; simp) (by simp)
  rw [hsum, Finset.card_univ, Fintype.card_prod, Fintype.card_fin]
  have hle : ∑ i, |v (0, i)| ^ 2 ≤ Fintype.card κ * B ^ 2 := by
    calc ∑ i, |v (0, i)| ^ 2 ≤ ∑ _i : κ, B ^ 2 :=
          Finset.sum_le_sum fun i _ => pow_le_pow_left₀ (abs_nonneg _) (h0 i) 2
      _ = _ := by simp
  refine Real.sqrt_le_iff.2 ⟨by positivity, ?_⟩
  rw [div_pow, Real.sq_sqrt hN.le]
  push_cast
  rcases Nat.eq_zero_or_pos (Fintype.card κ) with h0 | h0
  · simp only [h0, Nat.cast_zero, mul_zero, div_zero]; positivity
  · have hm : (0 : ℝ) < Fintype.card κ := by exact_mod_cast h0
    rw [div_le_div_iff₀ (by positivity) hN]
    nlinarith

theorem adaptStep_grow (d er : ℝ) (h0 : 0 ≤ er) (h : er ≤ 1 / 10 ^ 21) : adaptStep d er (9 / 10) (1 / 5) 10 5 = d * 10 := by
  unfold adaptStep
  split_ifs with he hlt
  · rfl
  · have hpos : 0 < er := lt_of_le_of_ne h0 (Ne.symm he)
    have h1 : er ^ (((5 : ℕ) : ℝ)⁻¹) ≤ 9 / 100 := by
      calc er ^ (((5 : ℕ) : ℝ)⁻¹) ≤ ((9 / 100 : ℝ) ^ 5) ^ (((5 : ℕ) : ℝ)⁻¹) :=
            Real.rpow_le_rpow h0 (h.trans (by norm_num)) (by positivity)
        _ = 9 / 100 := Real.pow_rpow_inv_natCast (by norm_num) (by norm_num)
    have h2 : (10 : ℝ) ≤ 9 / 10 / er ^ (((5 : ℕ) : ℝ)⁻¹) := by
      rw [le_div_iff₀ (Real.rpow_pos_of_pos hpos _)]
      linarith
    show d * min 10 (max (9 / 10 / er ^ (((5 : ℕ) : ℝ)⁻¹)) 1) = d * 10
    rw [min_eq_left (h2.trans (le_max_left _ _))]
  · exact absurd (h.trans_lt (by norm_num)) hlt

theorem initStep_small {ι : Type} [Fintype ι] (f : ℝ → (ι → ℝ) → (ι → ℝ)) (x : ι → ℝ) (t0 : ℝ) (order : ℕ) (atol rtol : ℝ)
    (h1 : hairerNorm (fun i => f t0 x i / (atol + |x i| * rtol)) ≤ 1 / 10 ^ 21)
    (h2 : ∀ y, hairerNorm (fun i => (f (t0 + 1 / 10 ^ 6) y i - f t0 x i) / (atol + |x i| * rtol)) ≤ 1 / 10 ^ 21) :
    initStep (m := Except PyErr) (pureField f) (f t0 x) x t0 order atol rtol = .ok (1 / 10 ^ 6) := by
  have ht : initTrial (hairerNorm fun i => x i / (atol + |x i| * rtol)) (hairerNorm fun i => f t0 x i / (atol + |x i| * rtol)) =
      1 / 10 ^ 6 := by
    rw [initTrial, if_pos (Or.inr (h1.trans_lt (by norm_num)))]
  simp only [initStep, ht, pureField, bind, Except.bind, pure, Except.pure]
  have h3 := h2 (fun i => x i + 1 / 10 ^ 6 * f t0 x i)
  rw [initSecond, if_pos ⟨h1.trans (by norm_num), by rw [div_le_iff₀ (by norm_num)]; exact h3.trans (by norm_num)⟩]
  norm_num

theorem decadeTime_lt (a : ℝ) {k : ℕ} (hk : k ≤ 6) : decadeTime a k = a + (10 ^ k - 1) / (9 * 10 ^ 6) := if_pos hk

theorem decadeTime_gap (a : ℝ) {k : ℕ} (hk : k < 6) : decadeTime a (k + 1) - decadeTime a k = 10 ^ k / 10 ^ 6 := by
  rw [decadeTime_lt a hk, decadeTime_lt a hk.le, pow_succ]
  ring

theorem decadeTime_last (a : ℝ) : decadeTime a 7 - decadeTime a 6 = 888889 / 10 ^ 6 := by
  rw [decadeTime_lt a le_rfl, decadeTime, if_neg (by norm_num)]
  ring

theorem decadeTime_gap_pos (a : ℝ) {k : ℕ} (hk : k < 7) :
    0 < decadeTime a (k + 1) - decadeTime a k ∧ decadeTime a (k + 1) - decadeTime a k ≤ 1 := by
  rcases Nat.lt_or_ge k 6 with h | h
  · rw [decadeTime_gap a h]
    have hp : (10 : ℝ) ^ k ≤ 10 ^ 6 := pow_le_pow_right₀ (by norm_num) h.le
    exact ⟨by positivity, by rw [div_le_one (by positivity)]; exact hp⟩
  · obtain rfl : k = 6 := by omega
    rw [decadeTime_last]
    norm_num

/-- **C151.** It is not true that the tolerances hold for each sample of a batch: other samples dilute the error norm. Let a
bounded system be integrated over an interval of length one by `dopri5` or `tsit5` in a batch with `N` samples at rest (anywhere).
For all tolerances, as soon as `N` is large enough, the call takes the steps `10⁻⁶, 10⁻⁵, …, 0.1, 0.888889`, whatever the system
is, and returns the state the sample has after them. -/
theorem C151_dilution_refuted (tsit : Bool) (args : A) (g : ℝ → (κ → ℝ) → (κ → ℝ)) (M : ℝ) (hM : ∀ t x i, |g t x i| ≤ M)
    (a : ℝ) (x0 : κ → ℝ) (atol rtol : ℝ) (ha : 0 < atol) (hr : 0 ≤ rtol) :
    ∃ Y : ℕ → κ → ℝ, Y 0 = x0 ∧
      (∀ k < 7, AnyStep (libSolver tsit κ A) args g (decadeTime a k, Y k) (decadeTime a (k + 1), Y (k + 1))) ∧
      ∃ N0, ∀ N ≥ N0, ∀ X : Fin (N + 1) × κ → ℝ, (fun i => X (0, i)) = x0 → ∃ Z : Fin (N + 1) × κ → ℝ,
        (fun i => Z (0, i)) = Y 7 ∧ (∀ b, b ≠ 0 → ∀ i, Z (b, i) = X (b, i)) ∧
        ∀ fuel saveAt, odeint (fuel + 8) (pureField (batchField (withResting N g))) X [a, a + 1]
          (libSolver tsit (Fin (N + 1) × κ) A) atol rtol false false saveAt args Finset.univ =
            .ok (some ([a, a + 1], [X, Z])) := by
  classical
  have hs := libSolver_fsalSolver (ι := κ) tsit args
  obtain ⟨E, hE⟩ := libSolver_errorLinear (ι := κ) tsit args
  -- the run of the sample
  have hstep1 : ∀ (x : κ → ℝ) (t d : ℝ), ∃ x', ∃ k e st, (libSolver tsit κ A).step (fun t x => .ok (g t x)) x t d none args =
      .ok (.four k x' e st) := fun x t d => by
    obtain ⟨k, x', e, st, h⟩ := hs.step_ok g x t d none
    exact ⟨x', k, e, st, h⟩
  choose nxt hnxt using hstep1
  let Y : ℕ → κ → ℝ := fun k => Nat.rec x0 (fun k x => nxt x (decadeTime a k) (decadeTime a (k + 1) - decadeTime a k)) k
  have hY : ∀ k, Y (k + 1) = nxt (Y k) (decadeTime a k) (decadeTime a (k + 1) - decadeTime a k) := fun _ => rfl
  refine ⟨Y, rfl, fun k _ => ?_, ?_⟩
  · obtain ⟨k', e, st, h⟩ := hnxt (Y k) (decadeTime a k) (decadeTime a (k + 1) - decadeTime a k)
    exact ⟨k', e, st, h⟩
  set C : ℝ := (2 + |E|) * |M| / atol with hC
  have hC0 : 0 ≤ C := by positivity
  obtain ⟨N0, hN0⟩ := exists_nat_ge ((C * 10 ^ 21) ^ 2)
  refine ⟨N0, fun N hN X hX => ?_⟩
  have hsq : C * 10 ^ 21 ≤ Real.sqrt (N + 1) := by
    refine Real.le_sqrt_of_sq_le (hN0.trans ?_)
    have : (N0 : ℝ) ≤ N := by exact_mod_cast hN
    linarith
  have hsp : 0 < Real.sqrt ((N : ℝ) + 1) := Real.sqrt_pos.2 (by positivity)
  have hsmall : ∀ B, B ≤ C → B / Real.sqrt (N + 1) ≤ 1 / 10 ^ 21 := fun B hB => by
    rw [div_le_div_iff₀ hsp (by norm_num), one_mul]
    exact (mul_le_mul_of_nonneg_right hB (by norm_num)).trans hsq
  have hMM : ∀ t x i, |g t x i| ≤ |M| := fun t x i => (hM t x i).trans (le_abs_self M)
  set G := withResting N g with hG
  have hG0 : G 0 = g := by simp [hG, withResting]
  have hGb : ∀ b, b ≠ 0 → G b = fun _ _ _ => 0 := fun b hb => by simp [hG, withResting, hb]
  set F := batchField G with hF
  have hF0 : ∀ t y i, F t y (0, i) = g t (fun i => y (0, i)) i := fun t y i => by
    show G 0 t _ i = _
    rw [hG0]
  have hFb : ∀ b, b ≠ 0 → ∀ t y i, F t y (b, i) = 0 := fun b hb t y i => by
    show G b t _ i = _
    rw [hGb b hb]
  -- a step of the batch
  have hbatch : ∀ (y : Fin (N + 1) × κ → ℝ) (t d : ℝ), 0 < d → d ≤ 1 → ∃ y' e st,
      (libSolver tsit (Fin (N + 1) × κ) A).step (pureField F) y t d (some (F t y)) args =
        .ok (.four (F (t + d) y') y' e st) ∧ (fun i => y' (0, i)) = nxt (fun i => y (0, i)) t d ∧
      (∀ b, b ≠ 0 → ∀ i, y' (b, i) = y (b, i)) ∧ errorRatio Finset.univ atol rtol y y' e ≤ 1 / 10 ^ 21 := by
    intro y t d hd hd1
    obtain ⟨k, y', e, st, h⟩ := (libSolver_fsalSolver (ι := Fin (N + 1) × κ) tsit args).step_ok F y t d none
    have hk := (libSolver_fsalSolver (ι := Fin (N + 1) × κ) tsit args).fsal F y t d none k y' e st h
    have hsome := (libSolver_fsalSolver (ι := Fin (N + 1) × κ) tsit args).first_stage F y t d
    have hb := fun b => step_sample tsit args G b y t d k y' e st h
    have hE' : ∀ b, ∀ i, |e (b, i)| ≤ E * (if b = 0 then |M| else 0) * d := by
      intro b i
      have h1 := hb b
      rw [← (libSolver_fsalSolver (ι := κ) tsit args).first_stage] at h1
      have hbd : ∀ t x i, |G b t x i| ≤ if b = 0 then |M| else 0 := by
        intro t x i
        by_cases hb0 : b = 0
        · rw [if_pos hb0, hb0, hG0]; exact hMM t x i
        · rw [if_neg hb0, hGb b hb0]; simp
      exact hE (G b) _ hbd _ t d _ _ _ _ _ (fun i => hbd t _ i) hd h1 i
    refine ⟨y', e, st, ?_, ?_, ?_, ?_⟩
    · rw [← hk]
      exact hsome.trans h
    · obtain ⟨k1, e1, st1, h1⟩ := hnxt (fun i => y (0, i)) t d
      have h2 := hb 0
      rw [hG0] at h2
      have h3 := h1.symm.trans h2
      simp only [Except.ok.injEq, StepOut.four.injEq] at h3
      exact h3.2.1.symm
    · intro b hb0 i
      have h2 := hb b
      rw [hGb b hb0] at h2
      exact congrFun (libSolver_zero_step tsit args _ t d _ _ _ _ h2) i
    · refine (hairer_diluted _ (|E| * |M| / atol) (by positivity) (fun i => ?_) (fun b hb0 i => ?_)).trans (hsmall _ ?_)
      · have hden : atol ≤ atol + rtol * max |y (0, i)| |y' (0, i)| :=
          le_add_of_nonneg_right (mul_nonneg hr (le_max_of_le_left (abs_nonneg _)))
        rw [errorScaled, abs_div, abs_of_pos (ha.trans_le hden)]
        refine div_le_div₀ (by positivity) ?_ ha hden
        have h1 := hE' 0 i
        rw [if_pos rfl] at h1
        refine h1.trans ?_
        calc E * |M| * d ≤ |E| * |M| * d :=
              mul_le_mul_of_nonneg_right (mul_le_mul_of_nonneg_right (le_abs_self E) (abs_nonneg M)) hd.le
          _ ≤ |E| * |M| := mul_le_of_le_one_right (by positivity) hd1
      · have h1 := hE' b i
        rw [if_neg hb0, mul_zero, zero_mul] at h1
        rw [errorScaled, abs_eq_zero.1 (le_antisymm h1 (abs_nonneg _)), zero_div]
      · rw [hC]
        exact div_le_div_of_nonneg_right (mul_le_mul_of_nonneg_right (by linarith) (abs_nonneg M)) ha.le
  have hbatch' : ∀ (y : Fin (N + 1) × κ → ℝ) (t d : ℝ), ∃ y', 0 < d → d ≤ 1 → ∃ e st,
      (libSolver tsit (Fin (N + 1) × κ) A).step (pureField F) y t d (some (F t y)) args =
        .ok (.four (F (t + d) y') y' e st) ∧ (fun i => y' (0, i)) = nxt (fun i => y (0, i)) t d ∧
      (∀ b, b ≠ 0 → ∀ i, y' (b, i) = y (b, i)) ∧ errorRatio Finset.univ atol rtol y y' e ≤ 1 / 10 ^ 21 := by
    intro y t d
    by_cases h : 0 < d ∧ d ≤ 1
    · obtain ⟨y', h'⟩ := hbatch y t d h.1 h.2
      exact ⟨y', fun _ _ => h'⟩
    · exact ⟨y, fun h1 h2 => absurd ⟨h1, h2⟩ h⟩
  choose bn hbn using hbatch'
  let XX : ℕ → Fin (N + 1) × κ → ℝ := fun k =>
    Nat.rec X (fun k x => bn x (decadeTime a k) (decadeTime a (k + 1) - decadeTime a k)) k
  have hXX : ∀ k, XX (k + 1) = bn (XX k) (decadeTime a k) (decadeTime a (k + 1) - decadeTime a k) := fun _ => rfl
  have hinv : ∀ k, k ≤ 7 → (fun i => XX k (0, i)) = Y k ∧ ∀ b, b ≠ 0 → ∀ i, XX k (b, i) = X (b, i) := by
    intro k
    induction k with
    | zero => intro _; exact ⟨hX, fun _ _ _ => rfl⟩
    | succ k ih =>
      intro hk
      obtain ⟨i1, i2⟩ := ih (by omega)
      obtain ⟨hp, hp1⟩ := decadeTime_gap_pos a (k := k) (by omega)
      obtain ⟨e, st, -, h2, h3, -⟩ := hbn (XX k) (decadeTime a k) _ hp hp1
      refine ⟨?_, fun b hb i => ?_⟩
      · rw [hXX, hY, ← i1]; exact h2
      · rw [hXX, h3 b hb i, i2 b hb i]
  refine ⟨XX 7, (hinv 7 le_rfl).1, (hinv 7 le_rfl).2, fun fuel saveAt => ?_⟩
  have hadp : (libSolver tsit (Fin (N + 1) × κ) A).adaptive = true := by cases tsit <;> rfl
  obtain ⟨dt, -, hi, e⟩ := odeint_forward (fuel + 8) F X [] (libSolver tsit (Fin (N + 1) × κ) A) hadp atol rtol false false saveAt
    args Finset.univ (show a ≤ a + 1 by linarith)
  have hsc : ∀ p, atol ≤ atol + |X p| * rtol := fun p => le_add_of_nonneg_right (by positivity)
  rw [initStep_small F X a _ atol rtol] at hi
  · cases hi
    rw [e]
    have hint : odeintInterp (libSolver tsit (Fin (N + 1) × κ) A) false = none := by cases tsit <;> rfl
    rw [hint]
    have hgrow : ∀ y y' e : Fin (N + 1) × κ → ℝ, errorRatio Finset.univ atol rtol y y' e ≤ 1 / 10 ^ 21 → ∀ d,
        (odeintCfg (m := Except PyErr) (pureField F) (libSolver tsit (Fin (N + 1) × κ) A) args atol rtol Finset.univ none false).adapt d
          (errorRatio Finset.univ atol rtol y y' e) = d * 10 := by
      intro y y' e h d
      have h0 : 0 ≤ errorRatio Finset.univ atol rtol y y' e := Real.sqrt_nonneg _
      cases tsit <;> exact adaptStep_grow d _ h0 h
    obtain ⟨e7, st7, h7, -, -, h7'⟩ := hbn (XX 6) (decadeTime a 6) _ (decadeTime_gap_pos a (k := 6) (by norm_num)).1
      (decadeTime_gap_pos a (k := 6) (by norm_num)).2
    rw [decadeTime_last] at h7
    have ht6 : decadeTime a 6 = a + 111111 / 10 ^ 6 := by rw [decadeTime_lt a le_rfl]; norm_num
    have hx7 : bn (XX 6) (decadeTime a 6) (888889 / 10 ^ 6) = XX 7 := by rw [show XX 7 = _ from hXX 6, decadeTime_last]
    have := smooth_run_gen (odeintCfg (m := Except PyErr) (pureField F) (libSolver tsit (Fin (N + 1) × κ) A) args atol rtol
      Finset.univ none false) rfl rfl XX (fun k => F (decadeTime a k) (XX k)) a (fun k hk => by
        obtain ⟨hp, hp1⟩ := decadeTime_gap_pos a (k := k) (by omega)
        obtain ⟨e, st, h1, -, -, h4⟩ := hbn (XX k) (decadeTime a k) _ hp hp1
        refine ⟨e, st, ?_, ?_, hgrow _ _ _ h4⟩
        · rw [← hXX, add_sub_cancel, decadeTime_gap a hk] at h1
          rw [← decadeTime_lt a hk.le]
          exact h1
        · exact h4.trans (by norm_num)) (F (decadeTime a 6 + 888889 / 10 ^ 6) (XX 7)) (XX 7) e7 st7 (by
        rw [hx7, ht6] at h7
        rw [ht6]
        exact h7) (by
        rw [show bn (XX 6) (decadeTime a 6) (decadeTime a (6 + 1) - decadeTime a 6) = XX 7 from (hXX 6).symm] at h7'
        exact h7'.trans (by norm_num)) fuel
    have h0 : decadeTime a 0 = a := by simp [decadeTime]
    simp only [h0] at this
    exact this
  · refine (hairer_diluted _ (|M| / atol) (by positivity) (fun i => ?_) (fun b hb i => ?_)).trans (hsmall _ ?_)
    · rw [abs_div, abs_of_pos (ha.trans_le (hsc _)), hF0]
      exact div_le_div₀ (abs_nonneg M) (hMM _ _ _) ha (hsc _)
    · rw [hFb b hb, zero_div]
    · rw [hC]
      refine div_le_div_of_nonneg_right ?_ ha.le
      nlinarith [abs_nonneg E, abs_nonneg M]
  · intro y
    refine (hairer_diluted _ (2 * |M| / atol) (by positivity) (fun i => ?_) (fun b hb i => ?_)).trans (hsmall _ ?_)
    · rw [abs_div, abs_of_pos (ha.trans_le (hsc _)), hF0, hF0]
      refine div_le_div₀ (by positivity) ?_ ha (hsc _)
      refine (abs_sub _ _).trans ?_
      linarith [hMM (a + 1 / 10 ^ 6) (fun i => y (0, i)) i, hMM a (fun i => X (0, i)) i]
    · rw [hFb b hb, hFb b hb, sub_zero, zero_div]
    · rw [hC]
      refine div_le_div_of_nonneg_right ?_ ha.le
      nlinarith [abs_nonneg E, abs_nonneg M]

end dilution

/-! ### A sample that is integrated well alone and arbitrarily badly in a batch -/

section quintic

theorem quintic_apply (C t : ℝ) (h0 : 0 ≤ t) (h1 : t ≤ 1) (x : Unit → ℝ) : quintic C t x () = C * t ^ 5 := by
  rw [quintic, abs_of_nonneg h0, min_eq_left h1]

theorem quintic_step (args : A) (C t h : ℝ) (h0 : 0 ≤ t) (hh : 0 ≤ h) (h1 : t + h ≤ 1) (x k x' e : Unit → ℝ) (st : List (Unit → ℝ))
    (H : (libSolver false Unit A).step (fun t x => .ok (quintic C t x)) x t h none args = .ok (.four k x' e st)) :
    x' () = x () + C * (t + h) ^ 6 / 6 - C * t ^ 6 / 6 - C * h ^ 6 / 5400 ∧
      e () = C * (5 * t * h ^ 5 * (71 / 405000) + h ^ 6 * (19099 / 36450000)) := by
  have H' : rk7Step (m := Except PyErr) (constructDopri5 ℝ) (pureField (quintic C)) x t h none args = .ok (.four k x' e st) := H
  simp only [rk7Step, firstStage, pureField, bind, Except.bind, pure, Except.pure] at H'
  cases H'
  simp only [Pi.smul_apply, Pi.add_apply, smul_eq_mul]
  have q : ∀ c y, 0 ≤ c → c ≤ 1 → quintic C (t + c * h) y () = C * (t + c * h) ^ 5 := fun c y hc0 hc1 =>
    quintic_apply C _ (by positivity) (by nlinarith) y
  have hc : (constructDopri5 ℝ).c = [1 / 5, 3 / 10, 4 / 5, 8 / 9, 1, 1] := rfl
  rw [quintic_apply C t h0 (by linarith)]
  rw [q (nth (constructDopri5 ℝ).c 0) _ (by norm_num [hc, nth]) (by norm_num [hc, nth]),
    q (nth (constructDopri5 ℝ).c 1) _ (by norm_num [hc, nth]) (by norm_num [hc, nth]),
    q (nth (constructDopri5 ℝ).c 2) _ (by norm_num [hc, nth]) (by norm_num [hc, nth]),
    q (nth (constructDopri5 ℝ).c 3) _ (by norm_num [hc, nth]) (by norm_num [hc, nth]),
    q (nth (constructDopri5 ℝ).c 4) _ (by norm_num [hc, nth]) (by norm_num [hc, nth]),
    q (nth (constructDopri5 ℝ).c 5) _ (by norm_num [hc, nth]) (by norm_num [hc, nth])]
  simp only [constructDopri5, dopri5Bsol, dopri5Bhat, nth, List.zipWith, List.getD_cons_zero, List.getD_cons_succ]
  constructor
  · ring
  · ring

theorem quintic_bounded (C : ℝ) (hC : 0 ≤ C) (t : ℝ) (x : Unit → ℝ) (i : Unit) : |quintic C t x i| ≤ C := by
  have h0 : 0 ≤ min |t| 1 := le_min (abs_nonneg t) zero_le_one
  rw [quintic, abs_of_nonneg (by positivity)]
  exact mul_le_of_le_one_right hC (pow_le_one₀ h0 (min_le_right _ _))

/-- Accepted steps with small tolerances stay close to the solution. -/
theorem quintic_reached (args : A) (C ρ δ atol rtol : ℝ) (hC : 0 < C) (hρ : 0 < ρ) (hρ1 : ρ ≤ 1)
    (hδ : δ * (1 + C) * 1909 = C * ρ ^ 6) (ha : 0 < atol) (ha' : atol ≤ δ) (hr : 0 ≤ rtol) (hr' : rtol ≤ δ) (q : Point Unit)
    (h : Reached (libSolver false Unit A) args (quintic C) Finset.univ atol rtol (0, fun _ => 0) q) : q.1 ≤ 1 →
      0 ≤ q.1 ∧ q.2 () ≤ C * q.1 ^ 6 / 6 ∧ C * q.1 ^ 6 / 6 - C / 5400 * ρ ^ 5 * q.1 ≤ q.2 () := by
  induction h with
  | refl => intro _; norm_num
  | @tail p q _ hst ih =>
    intro hq
    obtain ⟨hlt, k, e, st, hs, hn⟩ := hst
    obtain ⟨p0, pu, pl⟩ := ih (hlt.le.trans hq)
    obtain ⟨hx, he⟩ := quintic_step args C p.1 (q.1 - p.1) p0 (sub_nonneg.2 hlt.le) (by linarith) p.2 k q.2 e st hs
    set d := q.1 - p.1 with hd
    have hd0 : 0 < d := sub_pos.2 hlt
    have hqd : q.1 = p.1 + d := by rw [hd]; ring
    rw [← hqd] at hx
    have hp1 : p.1 ≤ 1 := hlt.le.trans hq
    have hq0 : 0 ≤ q.1 := p0.trans hlt.le
    have hpp : p.1 ^ 6 ≤ 1 := pow_le_one₀ p0 hp1
    have hqq : q.1 ^ 6 ≤ 1 := pow_le_one₀ hq0 hq
    have hpp0 : 0 ≤ p.1 ^ 6 := by positivity
    have hqq0 : 0 ≤ q.1 ^ 6 := by positivity
    have hd6 : 0 < d ^ 6 := by positivity
    have hd61 : d ^ 6 ≤ 1 := pow_le_one₀ hd0.le (by linarith)
    have hρ5 : ρ ^ 5 ≤ 1 := pow_le_one₀ hρ.le hρ1
    have hρp : ρ ^ 5 * p.1 ≤ 1 := mul_le_one₀ hρ5 p0 hp1
    have hCd : 0 ≤ C * d ^ 6 := by positivity
    have hbp : |p.2 ()| ≤ C := by
      rw [abs_le]
      constructor
      · nlinarith [mul_nonneg hC.le hpp0, mul_le_mul_of_nonneg_left hρp hC.le]
      · nlinarith [mul_le_mul_of_nonneg_left hpp hC.le]
    have hbq : |q.2 ()| ≤ C := by
      rw [abs_le, hx]
      constructor
      · nlinarith [mul_nonneg hC.le hqq0, mul_le_mul_of_nonneg_left hρp hC.le, mul_le_mul_of_nonneg_left hd61 hC.le]
      · nlinarith [mul_le_mul_of_nonneg_left hqq hC.le]
    have hden : 0 < atol + rtol * max |p.2 ()| |q.2 ()| :=
      add_pos_of_pos_of_nonneg ha (mul_nonneg hr (le_max_of_le_left (abs_nonneg _)))
    have hle : e () ≤ δ * (1 + C) := by
      have h1 : |e () / (atol + rtol * max |p.2 ()| |q.2 ()|)| ≤ 1 := by
        have : errorNorm Finset.univ atol rtol p.2 q.2 e = |e () / (atol + rtol * max |p.2 ()| |q.2 ()|)| := by
          simp [errorNorm, Real.sqrt_sq_eq_abs]
        rw [← this]; exact hn
      rw [abs_div, abs_of_pos hden, div_le_one hden] at h1
      have h2 : rtol * max |p.2 ()| |q.2 ()| ≤ δ * C := mul_le_mul hr' (max_le hbp hbq) (le_max_of_le_left (abs_nonneg _))
        (hr.trans hr')
      linarith [le_abs_self (e ())]
    have hdρ : d ≤ ρ := by
      refine le_of_pow_le_pow_left₀ (n := 6) (by norm_num) hρ.le ?_
      have h1 : C * d ^ 6 ≤ C * ρ ^ 6 := by
        have h2 : 0 ≤ C * (5 * p.1 * d ^ 5 * (71 / 405000)) := by positivity
        rw [he] at hle
        nlinarith
      exact le_of_mul_le_mul_left h1 hC
    have hd6' : d ^ 6 ≤ ρ ^ 5 * d := by
      rw [pow_succ]
      exact mul_le_mul_of_nonneg_right (pow_le_pow_left₀ hd0.le hdρ 5) hd0.le
    refine ⟨hq0, ?_, ?_⟩
    · rw [hx]; linarith
    · have h3 := mul_le_mul_of_nonneg_left hd6' hC.le
      have h4 : C / 5400 * ρ ^ 5 * q.1 = C / 5400 * ρ ^ 5 * p.1 + C * (ρ ^ 5 * d) / 5400 := by rw [hqd]; ring
      rw [hx, h4]
      linarith

/-- **C151.** A system whose solution `dopri5` approximates as well as one likes when it is integrated alone with small tolerances,
and with an error as large as one likes when it is one sample of a batch, whatever the tolerances of the call. -/
theorem C151_sample_refuted (args : A) (E : ℝ) : ∃ C : ℝ,
    (∀ t ∈ Set.Icc (0 : ℝ) 1, HasDerivAt (fun s => C * s ^ 6 / 6) (quintic C t (fun _ => C * t ^ 6 / 6) ()) t) ∧
    (∀ ε > 0, ∃ δ > 0, ∀ atol rtol, 0 < atol → atol ≤ δ → 0 ≤ rtol → rtol ≤ δ → ∃ fuel0, ∀ fuel ≥ fuel0, ∀ saveAt, ∃ y : Unit → ℝ,
      odeint fuel (pureField (quintic C)) (fun _ => 0) [0, 1] (libSolver false Unit A) atol rtol false false saveAt args
        Finset.univ = .ok (some ([0, 1], [fun _ => 0, y])) ∧ |y () - C * 1 ^ 6 / 6| ≤ ε) ∧
    ∀ atol rtol, 0 < atol → 0 ≤ rtol → ∃ N0, ∀ N ≥ N0, ∃ Z : Fin (N + 1) × Unit → ℝ, E ≤ |Z (0, ()) - C * 1 ^ 6 / 6| ∧
      ∀ fuel saveAt, odeint (fuel + 8) (pureField (batchField (withResting N (quintic C)))) (fun _ => 0) [0, 1]
        (libSolver false (Fin (N + 1) × Unit) A) atol rtol false false saveAt args Finset.univ =
          .ok (some ([0, 1], [fun _ => 0, Z])) := by
  have hC : (0 : ℝ) < 11000 * (|E| + 1) := by positivity
  refine ⟨11000 * (|E| + 1), ?_, ?_, ?_⟩
  · intro t ht
    rw [quintic_apply _ t ht.1 ht.2]
    have := ((hasDerivAt_pow 6 t).const_mul (11000 * (|E| + 1))).div_const 6
    refine this.congr_deriv ?_
    push_cast
    ring
  · intro ε hε
    set C : ℝ := 11000 * (|E| + 1) with hCdef
    set ρ := min 1 (5400 * ε / C) with hρ
    have hρ0 : 0 < ρ := lt_min one_pos (by positivity)
    have hρ1 : ρ ≤ 1 := min_le_left _ _
    have hρε : C / 5400 * ρ ^ 5 ≤ ε := by
      have h1 : ρ ^ 5 ≤ ρ := pow_le_of_le_one hρ0.le hρ1 (by norm_num)
      have h2 : C * ρ ≤ 5400 * ε := by
        have := mul_le_mul_of_nonneg_left (min_le_right (1 : ℝ) (5400 * ε / C)) hC.le
        rwa [mul_div_cancel₀ _ hC.ne'] at this
      nlinarith
    refine ⟨C * ρ ^ 6 / (1909 * (1 + C)), by positivity, fun atol rtol ha ha' hr hr' => ?_⟩
    have hinc : Increasing [(0 : ℝ), 1] := by simp [Increasing]
    obtain ⟨fuel0, ts, xs, h0⟩ := C27_terminates_dopri5 (ι := Unit) args (quintic C) C (quintic_bounded C hC.le) (fun _ => 0) 0 1 []
      hinc atol rtol ha hr false false [] Finset.univ
    refine ⟨fuel0, fun fuel hf saveAt => ?_⟩
    have h : odeint fuel (pureField (quintic C)) (fun _ => 0) [0, 1] (libSolver false Unit A) atol rtol false false saveAt args
        Finset.univ = .ok (some (ts, xs)) :=
      C21_fuel_irrelevant (libSolver_fsalSolver false args) (quintic C) (fun _ => 0) 0 1 [] atol rtol false false saveAt
        Finset.univ fuel0 fuel hf (ts, xs) h0
    obtain ⟨r, hr1, hr2⟩ := C21_times (libSolver_fsalSolver (ι := Unit) false args) (quintic C) (fun _ => 0) 0 1 [] hinc atol rtol
      false saveAt Finset.univ fuel
    rw [h] at hr1
    cases hr1
    obtain ⟨rfl, hlen, hx0⟩ := hr2 ts xs rfl
    obtain ⟨-, -, -, hreach⟩ := C22_accepted (libSolver_fsalSolver (ι := Unit) false args) (quintic C) (fun _ => 0) 0 1 [] hinc atol
      rtol false false (Or.inl rfl) saveAt Finset.univ fuel _ xs h
    match xs, hlen, hx0, h, hreach with
    | [x0, y], _, hx0, h, hreach =>
      simp only [List.getElem?_cons_zero, Option.some.injEq] at hx0
      subst hx0
      refine ⟨y, h, ?_⟩
      have := quintic_reached args C ρ (C * ρ ^ 6 / (1909 * (1 + C))) atol rtol hC hρ0 hρ1 (by field_simp) ha ha' hr hr' (1, y)
        (hreach 0 0 _ 1 y rfl rfl rfl rfl) le_rfl
      obtain ⟨-, h1, h2⟩ := this
      simp only [mul_one] at h1 h2
      rw [abs_le]
      constructor <;> linarith
  · intro atol rtol ha hr
    set C : ℝ := 11000 * (|E| + 1) with hCdef
    obtain ⟨Y, hY0, hY, N0, hN⟩ := C151_dilution_refuted (A := A) false args (quintic C) C (quintic_bounded C hC.le) 0 (fun _ => 0)
      atol rtol ha hr
    refine ⟨N0, fun N hN' => ?_⟩
    obtain ⟨Z, hZ, -, hrun⟩ := hN N hN' (fun _ => 0) rfl
    refine ⟨Z, ?_, fun fuel saveAt => by simpa using hrun fuel saveAt⟩
    have hstep : ∀ k, k < 7 → Y (k + 1) () ≤ Y k () + C * decadeTime 0 (k + 1) ^ 6 / 6 - C * decadeTime 0 k ^ 6 / 6 -
        C * (decadeTime 0 (k + 1) - decadeTime 0 k) ^ 6 / 5400 := by
      intro k hk
      obtain ⟨k', e, st, hs⟩ := hY k hk
      have hmon : ∀ j, j ≤ 7 → 0 ≤ decadeTime 0 j ∧ decadeTime 0 j ≤ 1 := by
        intro j hj
        rw [decadeTime]
        split_ifs with h6
        · have h1 : (1 : ℝ) ≤ 10 ^ j := one_le_pow₀ (by norm_num)
          have h2 : (10 : ℝ) ^ j ≤ 10 ^ 6 := pow_le_pow_right₀ (by norm_num) h6
          rw [zero_add]
          exact ⟨div_nonneg (by linarith) (by norm_num), by rw [div_le_one (by norm_num)]; linarith⟩
        · norm_num
      have := (quintic_step args C (decadeTime 0 k) (decadeTime 0 (k + 1) - decadeTime 0 k) (hmon k (by omega)).1
        (decadeTime_gap_pos 0 hk).1.le (by rw [add_sub_cancel]; exact (hmon (k + 1) (by omega)).2) _ _ _ e st hs).1
      rw [add_sub_cancel] at this
      exact this.le
    have hle : ∀ k, k ≤ 6 → Y k () ≤ C * decadeTime 0 k ^ 6 / 6 := by
      intro k
      induction k with
      | zero => intro _; rw [hY0]; simp [decadeTime]
      | succ k ih =>
        intro hk
        have h1 := hstep k (by omega)
        have h2 := ih (by omega)
        have h3 : 0 ≤ C * (decadeTime 0 (k + 1) - decadeTime 0 k) ^ 6 / 5400 := by positivity
        linarith
    have h7 := hstep 6 (by norm_num)
    have h6 := hle 6 le_rfl
    have ht7 : decadeTime 0 7 = 1 := by simp [decadeTime]
    rw [decadeTime_last, show (6 + 1 : ℕ) = 7 from rfl, ht7] at h7
    have hz : Z (0, ()) = Y 7 () := congrFun hZ ()
    rw [hz]
    have hnum : (1 / 11000 : ℝ) ≤ (888889 / 10 ^ 6) ^ 6 / 5400 := by norm_num
    have h8 : C * (1 / 11000) ≤ C * ((888889 / 10 ^ 6) ^ 6 / 5400) := mul_le_mul_of_nonneg_left hnum hC.le
    have h9 : C * (1 / 11000) = |E| + 1 := by rw [hCdef]; ring
    have h10 : Y 7 () - C * 1 ^ 6 / 6 ≤ -(|E| + 1) := by
      have : C * (888889 / 10 ^ 6) ^ 6 / 5400 = C * ((888889 / 10 ^ 6) ^ 6 / 5400) := by ring
      linarith
    rw [abs_of_nonpos (by linarith [abs_nonneg E])]
    linarith [le_abs_self E]

/-- The hypotheses of `C151_sample_partial` are met: a batch of four samples of which one moves, on a grid of three times. -/
example : ∃ fuel ts xs, odeint fuel (pureField (batchField (withResting 3 (quintic 1)))) (fun _ => 2) [0, 1, 3]
    (libSolver false (Fin 4 × Unit) Unit) (1 / 1000) (1 / 1000) false false [] () Finset.univ = .ok (some (ts, xs)) :=
  C27_terminates_dopri5 (ι := Fin 4 × Unit) () _ 1 (fun t x p => by
    show |withResting 3 (quintic 1) p.1 t _ p.2| ≤ 1
    unfold withResting
    split_ifs
    · exact quintic_bounded 1 zero_le_one t _ _
    · simp) _ 0 1 [3] (by simp [Increasing]) _ _ (by norm_num) (by norm_num) _ _ _ _

end quintic

end Torchdyn
