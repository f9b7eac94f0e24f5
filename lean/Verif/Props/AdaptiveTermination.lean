import Verif.Proofs.Termination
import Verif.Props.Adaptive

/-!
Properties C27 and C28: termination of adaptive `odeint`.
-/

set_option linter.unusedSectionVars false
set_option linter.unusedSimpArgs false

namespace Torchdyn

open Spec

variable {ι A : Type} [Fintype ι] {solver : Solver (Except PyErr) ℝ (ι → ℝ) A} {args : A}

/-- The error estimate of the solver is at most `E * M * dt` in every component when the field (and
the reused first stage) are bounded by `M`. -/
def ErrorLinear (solver : Solver (Except PyErr) ℝ (ι → ℝ) A) (args : A) (E : ℝ) : Prop :=
  ∀ (f : ℝ → (ι → ℝ) → (ι → ℝ)) (M : ℝ), (∀ t x i, |f t x i| ≤ M) →
    ∀ x t dt k1 k x' e st, (∀ i, |k1 i| ≤ M) → 0 < dt →
    solver.step (fun t x => .ok (f t x)) x t dt (some k1) args = .ok (.four k x' e st) →
    ∀ i, |e i| ≤ E * M * dt

theorem errorNorm_le (sel : Finset ι) (atol rtol : ℝ) (ha : 0 < atol) (hr : 0 ≤ rtol)
    (x x' e : ι → ℝ) (B : ℝ) (hB : 0 ≤ B) (he : ∀ i, |e i| ≤ B) :
    errorNorm sel atol rtol x x' e ≤ B / atol := by
  unfold errorNorm
  rw [Real.sqrt_le_left (by positivity)]
  have hterm : ∀ i ∈ sel, (e i / (atol + rtol * max |x i| |x' i|)) ^ 2 ≤ (B / atol) ^ 2 := by
    intro i _
    have hd : atol ≤ atol + rtol * max |x i| |x' i| :=
      le_add_of_nonneg_right (mul_nonneg hr (le_max_of_le_left (abs_nonneg _)))
    rw [sq_le_sq, abs_div, abs_div, abs_of_pos ha, abs_of_pos (ha.trans_le hd), abs_of_nonneg hB]
    exact div_le_div₀ hB (he i) ha hd
  rcases Nat.eq_zero_or_pos sel.card with h0 | h0
  · rw [h0]; simp; positivity
  · rw [div_le_iff₀ (by exact_mod_cast h0)]
    refine (Finset.sum_le_sum hterm).trans (le_of_eq ?_)
    rw [Finset.sum_const, nsmul_eq_mul, mul_comm]

/-- The adaptive routine ends when an invariant `Good` of state, time and stored derivative is preserved by accepted steps and
guarantees that steps of size at most `δ` have a small error estimate. -/
theorem adaptive_terminates_good (hs : FsalSolver solver args)
    (hord : 1 ≤ solver.order) (h1 : solver.safety = 9 / 10) (h2 : solver.minFactor = 1 / 5)
    (h3 : solver.maxFactor = 10) (f : ℝ → (ι → ℝ) → (ι → ℝ)) {T : ℝ}
    {t0 t1 : ℝ} {rest : List ℝ} (hinc : Increasing (t0 :: t1 :: rest)) (hT : (t1 :: rest).getLast? = some T) (atol rtol : ℝ)
    (interp) (rae : Bool) (sel : Finset ι) {δ : ℝ} (hδ : 0 < δ)
    (Good : (ι → ℝ) → ℝ → (ι → ℝ) → Prop)
    (hgood : ∀ x t dt k1 x' e st, Good x t k1 → t0 ≤ t → 0 < dt → t + dt ≤ T →
      (interp = none → ∀ b ∈ t1 :: rest, t < b → t + dt ≤ b) →
      solver.step (fun t x => .ok (f t x)) x t dt (some k1) args = .ok (.four (f (t + dt) x') x' e st) →
      Good x' (t + dt) (f (t + dt) x'))
    (hsmall : ∀ x t dt k1 k x' e st, Good x t k1 → t0 ≤ t → t ≤ T → 0 < dt → dt ≤ δ →
      solver.step (fun t x => .ok (f t x)) x t dt (some k1) args = .ok (.four k x' e st) →
      errorNorm sel atol rtol x x' e < 1)
    (k1 x : ι → ℝ) (hk1 : Good x t0 k1) {dt : ℝ} (hdt : 0 < dt) :
    ∃ fuel ts xs, adaptiveOdeint (odeintCfg (pureField f) solver args atol rtol sel interp rae)
      fuel k1 x dt (t0 :: t1 :: rest) = .ok (some (ts, xs)) := by
  obtain ⟨out, ho1, ho2, ho3, had⟩ := hs.out f atol rtol sel interp rae
  set cfg := odeintCfg (pureField f) solver args atol rtol sel interp rae with hcfg
  have hctrl : ∀ dt er, 0 < dt → 0 ≤ er → dt * (1 / 5) ≤ cfg.adapt dt er ∧
      cfg.adapt dt er ≤ dt * 10 ∧ (er < 1 → dt ≤ cfg.adapt dt er) ∧
      (1 ≤ er → cfg.adapt dt er ≤ dt * max (9 / 10) (1 / 5)) := by
    intro dt er hdt her
    have := C25_controller dt er solver.safety solver.minFactor solver.maxFactor solver.order hdt her
      hs.safety_pos (by rw [h2]; norm_num) (by rw [h3]; norm_num) hord
    rw [h1, h2, h3] at this
    simp only [hcfg, odeintCfg, h1, h2, h3]
    exact this
  have herr : ∀ x t dt k1, 0 ≤ cfg.errRatio x (out x t dt k1).2.1 (out x t dt k1).2.2.1 := by
    intro x t dt k1
    exact hairerNormOn_nonneg _ _
  -- the controller is only ever called with nonnegative error ratios; clip it to use the abstract lemma
  set cfg' : AdaptiveCfg (Except PyErr) ℝ (ι → ℝ) :=
    { cfg with adapt := fun dt er => cfg.adapt dt (max er 0) } with hcfg'
  have hloop : ∀ tEval T fuel s, adaptiveLoop cfg' tEval T fuel s = adaptiveLoop cfg tEval T fuel s := by
    intro tEval T fuel
    induction fuel with
    | zero => intro s; rfl
    | succ fuel ih =>
      intro s
      have hiter : adaptiveIter cfg' tEval T s = adaptiveIter cfg tEval T s := by
        simp only [adaptiveIter]
        have e : cfg'.step s.x s.t (checkpointDt cfg'.interp.isSome tEval s (clampDt T s)).1 s.k1 =
          cfg.step s.x s.t (checkpointDt cfg.interp.isSome tEval s (clampDt T s)).1 s.k1 := rfl
        rw [e, ho1]
        simp only [bind, Except.bind, StepOut.unpack4, pure, Except.pure]
        have e2 : ∀ d er, 0 ≤ er → cfg'.adapt d er = cfg.adapt d er := by
          intro d er h
          simp only [hcfg', max_eq_left h]
        have e3 : cfg'.errRatio = cfg.errRatio := rfl
        have e4 : ∀ s d a b c, acceptStep cfg' tEval s d a b c = acceptStep cfg tEval s d a b c :=
          fun _ _ _ _ _ => rfl
        have e5 : cfg'.interp = cfg.interp := rfl
        simp only [e3, e4, e5, e2 _ _ (herr _ _ _ _)]
      rw [adaptiveLoop, adaptiveLoop, hiter]
      simp only [ih]
  obtain ⟨fuel, r, hfr⟩ := adaptiveLoop_terminates (cfg := cfg') (out := out)
    (δ := δ) (σ := 9 / 10) (C := 10) (fun x t dt k1 => ho1 x t dt k1)
    hδ (by norm_num) (by norm_num) (by norm_num)
    (fun dt er hdt => had dt _ hdt)
    (fun dt er hdt her => by
      obtain ⟨_, b, c, _⟩ := hctrl dt (max er 0) hdt (le_max_right _ _)
      exact ⟨c (max_lt her one_pos), by rw [mul_comm]; exact b⟩)
    (fun dt er hdt her => by
      obtain ⟨_, _, _, d⟩ := hctrl dt (max er 0) hdt (le_max_right _ _)
      have := d (le_max_of_le_left her.le)
      rw [mul_comm]
      refine this.trans (le_of_eq ?_)
      norm_num)
    Good (fun x t dt k1 hk ht0 hdt hle hnext => by
      have := hgood x t dt k1 (out x t dt k1).2.1 (out x t dt k1).2.2.1 (out x t dt k1).2.2.2 hk ht0 hdt hle hnext
        (by rw [← ho2]; exact ho1 x t dt k1)
      rw [ho2]; exact this)
    (fun x t dt k1 hk ht0 htT hdt hle => by
      have e : cfg'.errRatio x (out x t dt k1).2.1 (out x t dt k1).2.2.1 =
        errorNorm sel atol rtol x (out x t dt k1).2.1 (out x t dt k1).2.2.1 := errorRatio_eq _ _ _ _ _ _
      rw [e]
      exact hsmall x t dt k1 _ _ _ _ hk ht0 htT hdt hle (ho1 x t dt k1))
    (List.pairwise_cons.1 hinc).2 hT (adaptiveInit k1 x dt t0)
    (adaptiveInit_inv k1 x hdt hinc hT) hk1
  rw [hloop] at hfr
  refine ⟨fuel, r.evalTimes, r.sol, ?_⟩
  have hgT : (t0 :: t1 :: rest)[(t0 :: t1 :: rest).length - 1]? = some T := by
    rw [← List.getLast?_eq_getElem?, getLast?_cons_cons, hT]
  have g0 : (getItem (t0 :: t1 :: rest) 0 : Except PyErr ℝ) = .ok t0 := rfl
  have gT : (getItem (t0 :: t1 :: rest) ((t0 :: t1 :: rest).length - 1) : Except PyErr ℝ) = .ok T := by
    rw [getItem, hgT]; rfl
  simp only [adaptiveOdeint, List.drop_succ_cons, List.drop_zero]
  rw [g0, gT]
  simp only [bind, Except.bind]
  rw [hfr]
  rfl

/-- The adaptive routine ends for bounded fields, whatever bounded first stage and positive first step it is given. -/
theorem adaptive_terminates (hs : FsalSolver solver args) (E : ℝ) (hE : ErrorLinear solver args E)
    (hord : 1 ≤ solver.order) (h1 : solver.safety = 9 / 10) (h2 : solver.minFactor = 1 / 5)
    (h3 : solver.maxFactor = 10)
    (f : ℝ → (ι → ℝ) → (ι → ℝ)) (M : ℝ) (hM : ∀ t x i, |f t x i| ≤ M) (k1 x : ι → ℝ)
    (hk1 : ∀ i, |k1 i| ≤ M) {dt : ℝ} (hdt : 0 < dt)
    {t0 t1 : ℝ} {rest : List ℝ} (hinc : Increasing (t0 :: t1 :: rest)) (atol rtol : ℝ)
    (ha : 0 < atol) (hr : 0 ≤ rtol) (interp) (rae : Bool) (sel : Finset ι) :
    ∃ fuel ts xs, adaptiveOdeint (odeintCfg (pureField f) solver args atol rtol sel interp rae)
      fuel k1 x dt (t0 :: t1 :: rest) = .ok (some (ts, xs)) := by
  obtain ⟨T, hT⟩ : ∃ T, (t1 :: rest).getLast? = some T := ⟨_, List.getLast?_eq_some_getLast (by simp)⟩
  set D := |E| * |M| + 1 with hD
  have hDpos : 0 < D := by positivity
  refine adaptive_terminates_good hs hord h1 h2 h3 f hinc hT atol rtol interp rae sel (δ := atol / (2 * D)) (by positivity)
    (fun _ _ k => ∀ i, |k i| ≤ M) (fun _ _ _ _ _ _ _ _ _ _ _ _ _ i => hM _ _ i) ?_ k1 x hk1 hdt
  intro x t dt k1 k x' e st hk _ _ hdt hle hst
  have hb := hE f M hM x t dt k1 _ _ _ _ hk hdt hst
  have hb' : ∀ i, |e i| ≤ D * dt := by
    intro i
    refine (hb i).trans (mul_le_mul_of_nonneg_right ?_ hdt.le)
    have := le_abs_self (E * M)
    rw [abs_mul] at this
    linarith
  refine lt_of_le_of_lt (errorNorm_le sel atol rtol ha hr x x' _ (D * dt) (by positivity) hb') ?_
  rw [div_lt_one ha]
  have : D * dt ≤ D * (atol / (2 * D)) := mul_le_mul_of_nonneg_left hle hDpos.le
  have e2 : D * (atol / (2 * D)) = atol / 2 := by field_simp
  rw [e2] at this
  linarith

/-- **C27**, for any solver object whose error estimate is linear in the step size for bounded
fields, with the step size constants of the templates: adaptive `odeint` returns, on every strictly
increasing grid, with or without interpolator. -/
theorem C27_terminates_general (hs : FsalSolver solver args) (E : ℝ) (hE : ErrorLinear solver args E)
    (hord : 1 ≤ solver.order) (h1 : solver.safety = 9 / 10) (h2 : solver.minFactor = 1 / 5)
    (h3 : solver.maxFactor = 10)
    (f : ℝ → (ι → ℝ) → (ι → ℝ)) (M : ℝ) (hM : ∀ t x i, |f t x i| ≤ M) (x : ι → ℝ)
    (t0 t1 : ℝ) (rest : List ℝ) (hinc : Increasing (t0 :: t1 :: rest)) (atol rtol : ℝ)
    (ha : 0 < atol) (hr : 0 ≤ rtol) (ui rae : Bool) (saveAt : List ℝ) (sel : Finset ι) :
    ∃ fuel ts xs, odeint fuel (pureField f) x (t0 :: t1 :: rest) solver atol rtol ui rae saveAt args sel
      = .ok (some (ts, xs)) := by
  obtain ⟨dt, hdt, hinit, -⟩ := odeint_forward 0 f x rest solver hs.adaptive atol rtol ui rae saveAt
    args sel (List.pairwise_cons.1 hinc |>.1 t1 (by simp)).le
  obtain ⟨fuel, ts, xs, h⟩ := adaptive_terminates hs E hE hord h1 h2 h3 f M hM (f t0 x) x
    (fun i => hM _ _ i) hdt hinc atol rtol ha hr (odeintInterp solver ui) rae sel
  obtain ⟨dt', _, hinit', e⟩ := odeint_forward fuel f x rest solver hs.adaptive atol rtol ui rae saveAt
    args sel (List.pairwise_cons.1 hinc |>.1 t1 (by simp)).le
  rw [hinit] at hinit'
  cases hinit'
  exact ⟨fuel, ts, xs, by rw [e]; exact h⟩

/-- **C27** on strictly decreasing grids. -/
theorem C27_terminates_backward (hs : FsalSolver solver args) (E : ℝ) (hE : ErrorLinear solver args E)
    (hord : 1 ≤ solver.order) (h1 : solver.safety = 9 / 10) (h2 : solver.minFactor = 1 / 5)
    (h3 : solver.maxFactor = 10)
    (f : ℝ → (ι → ℝ) → (ι → ℝ)) (M : ℝ) (hM : ∀ t x i, |f t x i| ≤ M) (x : ι → ℝ)
    (t0 t1 : ℝ) (rest : List ℝ) (hdec : (t0 :: t1 :: rest).Pairwise (· > ·)) (atol rtol : ℝ)
    (ha : 0 < atol) (hr : 0 ≤ rtol) (ui rae : Bool) (saveAt : List ℝ) (sel : Finset ι) :
    ∃ fuel ts xs, odeint fuel (pureField f) x (t0 :: t1 :: rest) solver atol rtol ui rae saveAt args sel
      = .ok (some (ts, xs)) := by
  obtain ⟨dt, hdt, e⟩ := odeint_backward_dt f x rest solver hs.adaptive atol rtol ui rae saveAt
    args sel (List.pairwise_cons.1 hdec |>.1 t1 (by simp))
  obtain ⟨fuel, ts, xs, h⟩ := adaptive_terminates hs E hE hord h1 h2 h3 (fun t x => -f (-t) x) M
    (fun t x i => by rw [Pi.neg_apply, abs_neg]; exact hM _ _ i) (-f (-(-t0)) x) x
    (fun i => by rw [Pi.neg_apply, abs_neg]; exact hM _ _ i) hdt
    (t0 := -t0) (t1 := -t1) (rest := rest.map (fun t => -t)) (increasing_neg hdec) atol rtol ha hr
    (odeintInterp solver ui) rae sel
  exact ⟨fuel, ts, xs, by rw [e]; exact h⟩

theorem rk7_errorLinear (tab : Tableau ℝ) (f : ℝ → (ι → ℝ) → (ι → ℝ)) (M : ℝ)
    (hM : ∀ t x i, |f t x i| ≤ M) (x : ι → ℝ) (t dt : ℝ) (k1 k x' e : ι → ℝ) (st : List (ι → ℝ))
    (hk1 : ∀ i, |k1 i| ≤ M) (hdt : 0 < dt)
    (h : rk7Step (m := Except PyErr) tab (pureField f) x t dt (some k1) args = .ok (.four k x' e st)) (i : ι) :
    |e i| ≤ (|nth tab.berr 0| + |nth tab.berr 1| + |nth tab.berr 2| + |nth tab.berr 3| +
      |nth tab.berr 4| + |nth tab.berr 5| + |nth tab.berr 6|) * M * dt := by
  simp only [rk7Step, firstStage, pureField, bind, Except.bind, pure, Except.pure] at h
  cases h
  simp only [Pi.smul_apply, Pi.add_apply, smul_eq_mul]
  have hb : ∀ (a y : ℝ), |y| ≤ M → |a * y| ≤ |a| * M := fun a y hy => by
    rw [abs_mul]; exact mul_le_mul_of_nonneg_left hy (abs_nonneg _)
  rw [abs_mul, abs_of_pos hdt, mul_comm]
  refine mul_le_mul_of_nonneg_right ?_ hdt.le
  rw [add_mul, add_mul, add_mul, add_mul, add_mul, add_mul]
  refine (abs_add_le _ _).trans (add_le_add ?_ (hb _ _ (hM _ _ i)))
  refine (abs_add_le _ _).trans (add_le_add ?_ (hb _ _ (hM _ _ i)))
  refine (abs_add_le _ _).trans (add_le_add ?_ (hb _ _ (hM _ _ i)))
  refine (abs_add_le _ _).trans (add_le_add ?_ (hb _ _ (hM _ _ i)))
  refine (abs_add_le _ _).trans (add_le_add ?_ (hb _ _ (hM _ _ i)))
  exact (abs_add_le _ _).trans (add_le_add (hb _ _ (hk1 i)) (hb _ _ (hM _ _ i)))

theorem dopri5_errorLinear (args : A) : ∃ E, ErrorLinear (dopri5Solver (Except PyErr) ℝ (ι → ℝ) A) args E :=
  ⟨_, fun f M hM x t dt k1 k x' e st hk hdt h i =>
    rk7_errorLinear (args := args) (constructDopri5 ℝ) f M hM x t dt k1 k x' e st hk hdt h i⟩

theorem tsit5_errorLinear (args : A) : ∃ E, ErrorLinear (tsit5Solver (Except PyErr) ℝ (ι → ℝ) A) args E :=
  ⟨_, fun f M hM x t dt k1 k x' e st hk hdt h i =>
    rk7_errorLinear (args := args) (constructTsit5 ℝ) f M hM x t dt k1 k x' e st hk hdt h i⟩

/-- **C27.** For `dopri5` and every bounded vector field (continuous or not), `atol > 0`, `rtol ≥ 0`,
every strictly increasing grid, with or without interpolator: adaptive `odeint` returns. -/
theorem C27_terminates_dopri5 (args : A) (f : ℝ → (ι → ℝ) → (ι → ℝ)) (M : ℝ)
    (hM : ∀ t x i, |f t x i| ≤ M) (x : ι → ℝ)
    (t0 t1 : ℝ) (rest : List ℝ) (hinc : Increasing (t0 :: t1 :: rest)) (atol rtol : ℝ)
    (ha : 0 < atol) (hr : 0 ≤ rtol) (ui rae : Bool) (saveAt : List ℝ) (sel : Finset ι) :
    ∃ fuel ts xs, odeint fuel (pureField f) x (t0 :: t1 :: rest)
      (dopri5Solver (Except PyErr) ℝ (ι → ℝ) A) atol rtol ui rae saveAt args sel
      = .ok (some (ts, xs)) :=
  C27_terminates_general (dopri5_fsalSolver args) _
    (fun f M hM x t dt k1 k x' e st hk hdt h i =>
      rk7_errorLinear (args := args) (constructDopri5 ℝ) f M hM x t dt k1 k x' e st hk hdt h i)
    (by norm_num [dopri5Solver]) rfl rfl rfl f M hM x t0 t1 rest hinc atol rtol ha hr ui rae saveAt sel

/-- **C27** for `tsit5`. -/
theorem C27_terminates_tsit5 (args : A) (f : ℝ → (ι → ℝ) → (ι → ℝ)) (M : ℝ)
    (hM : ∀ t x i, |f t x i| ≤ M) (x : ι → ℝ)
    (t0 t1 : ℝ) (rest : List ℝ) (hinc : Increasing (t0 :: t1 :: rest)) (atol rtol : ℝ)
    (ha : 0 < atol) (hr : 0 ≤ rtol) (ui rae : Bool) (saveAt : List ℝ) (sel : Finset ι) :
    ∃ fuel ts xs, odeint fuel (pureField f) x (t0 :: t1 :: rest)
      (tsit5Solver (Except PyErr) ℝ (ι → ℝ) A) atol rtol ui rae saveAt args sel
      = .ok (some (ts, xs)) :=
  C27_terminates_general (tsit5_fsalSolver args) _
    (fun f M hM x t dt k1 k x' e st hk hdt h i =>
      rk7_errorLinear (args := args) (constructTsit5 ℝ) f M hM x t dt k1 k x' e st hk hdt h i)
    (by norm_num [tsit5Solver]) rfl rfl rfl f M hM x t0 t1 rest hinc atol rtol ha hr ui rae saveAt sel

/-- Non-vacuity of C27 (and of the theorems C21–C24 about runs that return): the bounded,
discontinuous, state-dependent field `sign(x) cos`-like `f(t, x) = if x > t then -1 else 1`. -/
example : ∃ fuel ts xs, odeint fuel
    (pureField (fun (t : ℝ) (x : Fin 2 → ℝ) (i : Fin 2) => if t < x i then (-1 : ℝ) else 1))
    (fun _ => 0) [0, 1, 3] (dopri5Solver (Except PyErr) ℝ (Fin 2 → ℝ) Unit) (1 / 1000) (1 / 1000) true
    false [] () Finset.univ = .ok (some (ts, xs)) := by
  refine C27_terminates_dopri5 () _ 1 ?_ _ 0 1 [3] ?_ _ _ (by norm_num) (by norm_num) _ _ _ _
  · intro t x i
    split_ifs <;> simp
  · simp [Increasing]

/-- Non-vacuity on decreasing grids, for `dopri5` and `tsit5`. -/
example (f : ℝ → (Fin 2 → ℝ) → Fin 2 → ℝ) (hf : ∀ t x i, |f t x i| ≤ 7) (x : Fin 2 → ℝ) :
    (∃ fuel ts xs, odeint fuel (pureField f) x [3, 1, 0] (dopri5Solver (Except PyErr) ℝ (Fin 2 → ℝ) Unit) (1 / 1000)
      (1 / 1000) true false [] () Finset.univ = .ok (some (ts, xs))) ∧
    ∃ fuel ts xs, odeint fuel (pureField f) x [3, 1, 0] (tsit5Solver (Except PyErr) ℝ (Fin 2 → ℝ) Unit) (1 / 1000)
      (1 / 1000) true false [] () Finset.univ = .ok (some (ts, xs)) := by
  obtain ⟨E, hE⟩ := dopri5_errorLinear (ι := Fin 2) ()
  obtain ⟨E', hE'⟩ := tsit5_errorLinear (ι := Fin 2) ()
  constructor
  · exact C27_terminates_backward (dopri5_fsalSolver ()) E hE (by norm_num [dopri5Solver]) rfl rfl rfl f 7 hf x 3 1 [0]
      (by simp) _ _ (by norm_num) (by norm_num) _ _ _ _
  · exact C27_terminates_backward (tsit5_fsalSolver ()) E' hE' (by norm_num [tsit5Solver]) rfl rfl rfl f 7 hf x 3 1 [0]
      (by simp) _ _ (by norm_num) (by norm_num) _ _ _ _

/-- The loop never ends when every step that fits is rejected. -/
theorem adaptiveLoop_diverges {cfg : AdaptiveCfg (Except PyErr) ℝ (ι → ℝ)}
    {out : (ι → ℝ) → ℝ → ℝ → (ι → ℝ) → (ι → ℝ) × (ι → ℝ) × (ι → ℝ) × List (ι → ℝ)}
    (hout : FourStep cfg out) (hadapt : ∀ dt er, 0 < dt → 0 < cfg.adapt dt er)
    {tEval : List ℝ} {t0 T : ℝ} (hsort : tEval.Pairwise (· < ·)) (hT : tEval.getLast? = some T)
    (x k1 : ι → ℝ) (ht : t0 < T)
    (hrej : ∀ dt, 0 < dt → t0 + dt ≤ T →
      1 < cfg.errRatio x (out x t0 dt k1).2.1 (out x t0 dt k1).2.2.1) (fuel : ℕ) :
    ∀ s, AInv tEval t0 T s → s.t = t0 → s.x = x → s.k1 = k1 →
      adaptiveLoop cfg tEval T fuel s = .ok none := by
  induction fuel with
  | zero => intro s _ _ _ _; rfl
  | succ fuel ih =>
    intro s hinv hst hsx hsk
    obtain ⟨dt, s', h1, h2, h3, _⟩ := adaptiveIter_spec hout hadapt hsort hT hinv (hst ▸ ht)
    have hr := hrej dt h2.dt_pos (hst ▸ h2.le_T)
    obtain ⟨a, b, c, _⟩ := h2.rejected (by rw [hst, hsx, hsk]; exact not_le.2 hr)
    rw [adaptiveLoop, if_pos (hst ▸ ht), h1]
    exact ih s' h3 (a.trans hst) (b.trans hsx) (c.trans hsk)

/-- **C28**, the reason for its failure: when every step from the initial point that fits into
`t_span` has an error norm above 1, adaptive `odeint` neither returns nor raises, however many
iterations it is given. -/
theorem C28_diverges_when_rejected (hs : FsalSolver solver args) (f : ℝ → (ι → ℝ) → (ι → ℝ))
    (x : ι → ℝ) (t0 t1 T : ℝ) (rest : List ℝ) (hinc : Increasing (t0 :: t1 :: rest))
    (hT : (t0 :: t1 :: rest).getLast? = some T) (atol rtol : ℝ) (ui rae : Bool) (saveAt : List ℝ)
    (sel : Finset ι)
    (hrej : ∀ dt k x' e st, 0 < dt → t0 + dt ≤ T →
      solver.step (fun t x => .ok (f t x)) x t0 dt none args = .ok (.four k x' e st) →
      1 < errorNorm sel atol rtol x x' e) (fuel : ℕ) :
    odeint fuel (pureField f) x (t0 :: t1 :: rest) solver atol rtol ui rae saveAt args sel
      = .ok none := by
  obtain ⟨dt, hdt, -, e⟩ := odeint_forward fuel f x rest solver hs.adaptive atol rtol ui rae saveAt
    args sel (List.pairwise_cons.1 hinc |>.1 t1 (by simp)).le
  obtain ⟨out, ho1, ho2, ho3, had⟩ := hs.out f atol rtol sel (odeintInterp solver ui) rae
  rw [e]
  rw [getLast?_cons_cons] at hT
  have hgT : (t0 :: t1 :: rest)[(t0 :: t1 :: rest).length - 1]? = some T := by
    rw [← List.getLast?_eq_getElem?, getLast?_cons_cons, hT]
  have g0 : (getItem (t0 :: t1 :: rest) 0 : Except PyErr ℝ) = .ok t0 := rfl
  have gT : (getItem (t0 :: t1 :: rest) ((t0 :: t1 :: rest).length - 1) : Except PyErr ℝ) = .ok T := by
    rw [getItem, hgT]; rfl
  simp only [adaptiveOdeint, List.drop_succ_cons, List.drop_zero]
  rw [g0, gT]
  simp only [bind, Except.bind]
  rw [adaptiveLoop_diverges ho1 had (List.pairwise_cons.1 hinc).2 hT x (f t0 x)
    ((List.pairwise_cons.1 hinc).1 T (List.mem_of_getLast? hT)) ?_ fuel _
    (adaptiveInit_inv (f t0 x) x hdt hinc hT) rfl rfl rfl]
  · rfl
  · intro dt h1 h2
    have := hrej dt _ _ _ _ h1 h2 (ho3 x t0 dt)
    rw [← errorRatio_eq] at this
    exact this

/-- The singular field `x' = 1/t²` (and `0` at `t ≤ 0`). -/
noncomputable def singularField (t : ℝ) (_ : Unit → ℝ) : Unit → ℝ :=
  fun _ => if t ≤ 0 then 0 else 1 / t ^ 2

/-- Every `dopri5` step of the singular field from `0` at time `0` has a scaled error above 2. -/
theorem singular_step_error {dt : ℝ} (hdt : 0 < dt) (hle : dt ≤ 1) {k x' e : Unit → ℝ} {st : List (Unit → ℝ)}
    (hstep : (dopri5Solver (Except PyErr) ℝ (Unit → ℝ) Unit).step (fun t x => .ok (singularField t x)) 0 0 dt none () =
      .ok (.four k x' e st)) :
    2 < |e ()| / (1 / 1000 + 1 / 1000 * max |(0 : Unit → ℝ) ()| |x' ()|) := by
  simp only [dopri5Solver, dopri5Step, rk7Step, firstStage, bind, Except.bind, pure, Except.pure] at hstep
  cases hstep
  have hval : ∀ (c : ℝ) (y : Unit → ℝ), 0 < c → singularField (0 + c * dt) y = fun _ => 1 / c ^ 2 * (1 / dt ^ 2) := by
    intro c y hc
    funext _
    have : 0 < c * dt := mul_pos hc hdt
    rw [singularField, zero_add, if_neg (not_le.2 this)]
    field_simp
  have h0 : singularField 0 0 = fun _ => 0 := by
    funext _; simp [singularField]
  simp only [constructDopri5, nth, nth2, List.getD_cons_succ, List.getD_cons_zero]
  rw [h0]
  simp only [hval (1 / 5) _ (by norm_num), hval (3 / 10) _ (by norm_num), hval (4 / 5) _ (by norm_num),
    hval (8 / 9) _ (by norm_num), hval 1 _ (by norm_num)]
  simp only [dopri5Bsol, dopri5Bhat, List.zipWith_cons_cons,
    List.getD_cons_succ, List.getD_cons_zero, Pi.add_apply, Pi.smul_apply, smul_eq_mul, Pi.zero_apply,
    List.getD_nil, abs_zero]
  set u : ℝ := 1 / dt with hu
  have hu1 : 1 ≤ u := by rw [hu, le_div_iff₀ hdt]; linarith
  have hu2 : dt * (1 / dt ^ 2) = u := by rw [hu]; field_simp
  rw [show ∀ a b c d e f g h : ℝ, dt * (a * 0 + b * (c * (1 / dt ^ 2)) + d * (e * (1 / dt ^ 2)) +
      f * (g * (1 / dt ^ 2)) + h * (1 / (8 / 9) ^ 2 * (1 / dt ^ 2)) +
      (11 / 84 - 649 / 6300) * (1 / 1 ^ 2 * (1 / dt ^ 2)) + (0 - 1 / 60) * (1 / 1 ^ 2 * (1 / dt ^ 2))) =
      (b * c + d * e + f * g + h * (1 / (8 / 9) ^ 2) + (11 / 84 - 649 / 6300) + (0 - 1 / 60)) *
        (dt * (1 / dt ^ 2)) from fun a b c d e f g h => by ring]
  rw [show ∀ a b c d e f g h i : ℝ, 0 + dt * (a * 0 + b * (c * (1 / dt ^ 2)) + d * (e * (1 / dt ^ 2)) +
      f * (g * (1 / dt ^ 2)) + h * (1 / (8 / 9) ^ 2 * (1 / dt ^ 2)) + i * (1 / 1 ^ 2 * (1 / dt ^ 2))) =
      (b * c + d * e + f * g + h * (1 / (8 / 9) ^ 2) + i) *
        (dt * (1 / dt ^ 2)) from fun a b c d e f g h i => by ring]
  rw [hu2]
  have hmax : max 0 |(0 * (1 / (1 / 5) ^ 2) + 500 / 1113 * (1 / (3 / 10) ^ 2) + 125 / 192 * (1 / (4 / 5) ^ 2) +
      -2187 / 6784 * (1 / (8 / 9) ^ 2) + 11 / 84) * u| ≤ 6 * u := by
    refine max_le (by linarith) ?_
    rw [abs_mul, abs_of_pos (by linarith : (0 : ℝ) < u)]
    refine mul_le_mul_of_nonneg_right ?_ (by linarith)
    rw [abs_le]; constructor <;> norm_num
  set w := max 0 |(0 * (1 / (1 / 5) ^ 2) + 500 / 1113 * (1 / (3 / 10) ^ 2) + 125 / 192 * (1 / (4 / 5) ^ 2) +
      -2187 / 6784 * (1 / (8 / 9) ^ 2) + 11 / 84) * u| with hw
  have hw0 : 0 ≤ w := le_max_left _ _
  rw [lt_div_iff₀ (by positivity), abs_mul, abs_of_pos (by linarith : (0 : ℝ) < u)]
  have hE : (2 / 100 : ℝ) ≤ |(0 - 0) * (1 / (1 / 5) ^ 2) + (500 / 1113 - 22642 / 50085) * (1 / (3 / 10) ^ 2) +
      (125 / 192 - 451 / 720) * (1 / (4 / 5) ^ 2) + (-2187 / 6784 - -12231 / 42400) * (1 / (8 / 9) ^ 2) +
      (11 / 84 - 649 / 6300) + (0 - 1 / 60)| := by
    rw [le_abs]; right; norm_num
  nlinarith

/-- **C28 is false of the code**: with `dopri5` and the default tolerances, on `x' = 1/t²`, `x(0) = 0`,
`t_span = [0, 1]`, the adaptive loop rejects every step; it never returns and never raises. -/
theorem C28_always_returns_refuted :
    ¬ ∀ (f : ℝ → (Unit → ℝ) → (Unit → ℝ)) (x : Unit → ℝ) (t0 t1 : ℝ), t0 < t1 →
      ∃ fuel, odeint fuel (pureField f) x [t0, t1] (dopri5Solver (Except PyErr) ℝ (Unit → ℝ) Unit)
        (1 / 1000) (1 / 1000) false false [] () Finset.univ ≠ .ok none := by
  intro h
  obtain ⟨fuel, hf⟩ := h singularField 0 0 1 one_pos
  refine hf (C28_diverges_when_rejected (dopri5_fsalSolver ()) singularField 0 0 1 1 []
    (by simp [Increasing]) rfl _ _ _ _ _ _ ?_ fuel)
  intro dt k x' e st hdt hle hstep
  have h2 := singular_step_error hdt (by linarith) hstep
  simp only [errorNorm, Finset.univ_unique, Finset.sum_singleton, Finset.card_singleton, Nat.cast_one,
    div_one, Real.sqrt_sq_eq_abs, abs_div]
  refine lt_trans one_lt_two (lt_of_lt_of_le h2 (le_of_eq ?_))
  rw [abs_of_pos (a := (1 / 1000 + _ : ℝ)) (by positivity)]

end Torchdyn
