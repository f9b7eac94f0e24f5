import Mathlib.Analysis.Calculus.Deriv.Prod
import Mathlib.Analysis.SpecialFunctions.ExpDeriv
import Verif.Props.HybridTermination
import Verif.Props.AdaptiveTermination

/-!
Property C143: `odeint_hybrid` jumps only near an event.
-/

set_option linter.unusedSectionVars false
set_option linter.unusedSimpArgs false

namespace Torchdyn

open Spec

variable {ι A : Type} [Fintype ι] {solver : Solver (Except PyErr) ℝ (ι → ℝ) A} {args : A}

/-- A step moves every component by at most `K M dt` when the field is bounded by `M`. -/
def StepLinear (solver : Solver (Except PyErr) ℝ (ι → ℝ) A) (args : A) (K : ℝ) : Prop :=
  ∀ (f : ℝ → (ι → ℝ) → (ι → ℝ)) (M : ℝ), (∀ t x i, |f t x i| ≤ M) → ∀ x t dt k x' e st, 0 ≤ dt →
    solver.step (fun t x => .ok (f t x)) x t dt none args = .ok (.four k x' e st) → ∀ i, |x' i - x i| ≤ K * M * dt

theorem rk7_stepLinear (tab : Tableau ℝ) (f : ℝ → (ι → ℝ) → (ι → ℝ)) (M : ℝ)
    (hM : ∀ t x i, |f t x i| ≤ M) (x : ι → ℝ) (t dt : ℝ) (k x' e : ι → ℝ) (st : List (ι → ℝ)) (hdt : 0 ≤ dt)
    (h : rk7Step (m := Except PyErr) tab (pureField f) x t dt none args = .ok (.four k x' e st)) (i : ι) :
    |x' i - x i| ≤ (|nth tab.bsol 0| + |nth tab.bsol 1| + |nth tab.bsol 2| + |nth tab.bsol 3| +
      |nth tab.bsol 4| + |nth tab.bsol 5|) * M * dt := by
  simp only [rk7Step, firstStage, pureField, bind, Except.bind, pure, Except.pure] at h
  cases h
  simp only [Pi.smul_apply, Pi.add_apply, smul_eq_mul, add_sub_cancel_left]
  have hb : ∀ (a y : ℝ), |y| ≤ M → |a * y| ≤ |a| * M := fun a y hy => by
    rw [abs_mul]; exact mul_le_mul_of_nonneg_left hy (abs_nonneg _)
  rw [abs_mul, abs_of_nonneg hdt, mul_comm]
  refine mul_le_mul_of_nonneg_right ?_ hdt
  rw [add_mul, add_mul, add_mul, add_mul, add_mul]
  refine (abs_add_le _ _).trans (add_le_add ?_ (hb _ _ (hM _ _ i)))
  refine (abs_add_le _ _).trans (add_le_add ?_ (hb _ _ (hM _ _ i)))
  refine (abs_add_le _ _).trans (add_le_add ?_ (hb _ _ (hM _ _ i)))
  refine (abs_add_le _ _).trans (add_le_add ?_ (hb _ _ (hM _ _ i)))
  exact (abs_add_le _ _).trans (add_le_add (hb _ _ (hM _ _ i)) (hb _ _ (hM _ _ i)))

theorem dopri5_stepLinear (args : A) : StepLinear (dopri5Solver (Except PyErr) ℝ (ι → ℝ) A) args
    (35 / 384 + 500 / 1113 + 125 / 192 + 2187 / 6784 + 11 / 84) := by
  intro f M hM x t dt k x' e st hdt h i
  have := rk7_stepLinear (args := args) (constructDopri5 ℝ) f M hM x t dt k x' e st hdt h i
  have hb : (constructDopri5 ℝ).bsol = [35 / 384, 0, 500 / 1113, 125 / 192, -2187 / 6784, 11 / 84, 0] := rfl
  have e1 : |nth (constructDopri5 ℝ).bsol 0| + |nth (constructDopri5 ℝ).bsol 1| + |nth (constructDopri5 ℝ).bsol 2| +
      |nth (constructDopri5 ℝ).bsol 3| + |nth (constructDopri5 ℝ).bsol 4| + |nth (constructDopri5 ℝ).bsol 5| =
      35 / 384 + 500 / 1113 + 125 / 192 + 2187 / 6784 + 11 / 84 := by
    rw [hb]
    norm_num [nth, abs_of_pos, abs_of_neg]
  rwa [e1] at this

theorem near_of_located {f : ℝ → (ι → ℝ) → (ι → ℝ)} {M K : ℝ} (hM : ∀ t x i, |f t x i| ≤ M) (hK : 0 ≤ K * M)
    (hlin : StepLinear solver args K) {sel : Finset ι} {atol rtol tol : ℝ} {cbs : List (EventCallback ℝ (ι → ℝ))}
    {p : Point ι} {l : List (Point ι)} (h : LocatedTrace solver args f sel atol rtol tol cbs p l) :
    NearTrace tol (K * M * tol) cbs p l := by
  induction h with
  | nil p => exact .nil p
  | flow _ hq _ ih => exact .flow hq ih
  | @jump p b c l cb h1 h2 h3 h4 h5 _ ih =>
    refine .jump (c := c) cb ?_ h5 ?_ (fun i => ?_) ih
    · rcases Relation.ReflTransGen.cases_tail h1 with h | ⟨_, _, h⟩
      · exact Or.inl h
      · exact Or.inr h.2.2
    · rw [abs_of_nonneg (by linarith)]
      linarith
    · obtain ⟨k, e, st, hst⟩ := h2
      refine (hlin f M hM _ _ _ _ _ _ _ (by linarith) hst i).trans ?_
      exact mul_le_mul_of_nonneg_left (by linarith) hK

theorem tsit5_stepLinear (args : A) : StepLinear (tsit5Solver (Except PyErr) ℝ (ι → ℝ) A) args (759 / 100) := by
  intro f M hM x t dt k x' e st hdt h i
  have := rk7_stepLinear (args := args) (constructTsit5 ℝ) f M hM x t dt k x' e st hdt h i
  refine this.trans ?_
  have hM0 : 0 ≤ M := (abs_nonneg _).trans (hM 0 x i)
  have e1 : |nth (constructTsit5 ℝ).bsol 0| + |nth (constructTsit5 ℝ).bsol 1| + |nth (constructTsit5 ℝ).bsol 2| +
      |nth (constructTsit5 ℝ).bsol 3| + |nth (constructTsit5 ℝ).bsol 4| + |nth (constructTsit5 ℝ).bsol 5| ≤ 759 / 100 := by
    norm_num [constructTsit5, tsit5Bsol, nth, abs_of_pos, abs_of_neg]
  gcongr

/-- **C143 (partial: the field is bounded by `M`, events are persistent, the whole span is at most 4096 tolerances long).**
Every jump of `odeint_hybrid` with `dopri5` happens at a recorded point within `event_tol` in time and `1.65 M event_tol` in every
component of a point at which the callback that jumps is the first active one.

Missing: for unbounded fields there is no such bound (`C143_spurious_refuted`). -/
theorem C143_near_partial (args : A) (f : ℝ → (ι → ℝ) → (ι → ℝ)) (M : ℝ) (hM : ∀ t x i, |f t x i| ≤ M) (hM0 : 0 ≤ M)
    (x : ι → ℝ) (t0 T : ℝ) (tEval : List ℝ) (hsort : (t0 :: tEval).Pairwise (· ≤ ·))
    (hT : (t0 :: tEval).getLast? = some T) (jSpan : ℕ) (cbs : List (EventCallback ℝ (ι → ℝ)))
    (hpers : Persistent (dopri5Solver (Except PyErr) ℝ (ι → ℝ) A) args f cbs) (atol rtol eventTol : ℝ)
    (htol : T - t0 ≤ 4096 * eventTol) (jumpFirst : Bool) (sel : Finset ι) (fuel : ℕ) (ts : List ℝ) (xs : List (ι → ℝ))
    (hrun : odeintHybrid fuel (pureField f) x (t0 :: tEval) jSpan (dopri5Solver (Except PyErr) ℝ (ι → ℝ) A) cbs atol rtol
      eventTol jumpFirst sel args = .ok (some (ts, xs))) :
    xs.length = ts.length ∧ ∃ x0 l, StartState cbs jumpFirst t0 x x0 ∧ ts.zip xs = (t0, x0) :: l ∧
      NearTrace eventTol (165 / 100 * M * eventTol) cbs (t0, x0) l := by
  obtain ⟨r, h1, h2⟩ := C80_located_partial (dopri5_fsalSolver args) f x t0 T tEval hsort hT jSpan cbs hpers atol rtol eventTol
    htol jumpFirst sel fuel
  obtain ⟨h3, x0, l, h4, h5, h6⟩ := h2 ts xs (by rw [hrun] at h1; exact (Except.ok.inj h1).symm)
  refine ⟨h3, x0, l, h4, h5, near_of_located hM (by positivity) ?_ h6⟩
  intro f M hM x t dt k x' e st hdt h i
  refine (dopri5_stepLinear args f M hM x t dt k x' e st hdt h i).trans ?_
  have : 0 ≤ M := (abs_nonneg _).trans (hM 0 x i)
  gcongr
  norm_num

/-! ### A jump far from any event -/

/-- **C143 (partial, tsit5).** The same for `tsit5`, with the constant 7.59. -/
theorem C143_near_tsit5_partial (args : A) (f : ℝ → (ι → ℝ) → (ι → ℝ)) (M : ℝ) (hM : ∀ t x i, |f t x i| ≤ M) (hM0 : 0 ≤ M)
    (x : ι → ℝ) (t0 T : ℝ) (tEval : List ℝ) (hsort : (t0 :: tEval).Pairwise (· ≤ ·))
    (hT : (t0 :: tEval).getLast? = some T) (jSpan : ℕ) (cbs : List (EventCallback ℝ (ι → ℝ)))
    (hpers : Persistent (tsit5Solver (Except PyErr) ℝ (ι → ℝ) A) args f cbs) (atol rtol eventTol : ℝ)
    (htol : T - t0 ≤ 4096 * eventTol) (jumpFirst : Bool) (sel : Finset ι) (fuel : ℕ) (ts : List ℝ) (xs : List (ι → ℝ))
    (hrun : odeintHybrid fuel (pureField f) x (t0 :: tEval) jSpan (tsit5Solver (Except PyErr) ℝ (ι → ℝ) A) cbs atol rtol
      eventTol jumpFirst sel args = .ok (some (ts, xs))) :
    xs.length = ts.length ∧ ∃ x0 l, StartState cbs jumpFirst t0 x x0 ∧ ts.zip xs = (t0, x0) :: l ∧
      NearTrace eventTol (759 / 100 * M * eventTol) cbs (t0, x0) l := by
  obtain ⟨r, h1, h2⟩ := C80_located_partial (tsit5_fsalSolver args) f x t0 T tEval hsort hT jSpan cbs hpers atol rtol eventTol
    htol jumpFirst sel fuel
  obtain ⟨h3, x0, l, h4, h5, h6⟩ := h2 ts xs (by rw [hrun] at h1; exact (Except.ok.inj h1).symm)
  exact ⟨h3, x0, l, h4, h5, near_of_located hM (by positivity) (tsit5_stepLinear args) h6⟩

/-- Fast decay in the component `false`; the component `true` is constant. -/
noncomputable def stiffDecay : ℝ → (Bool → ℝ) → (Bool → ℝ) := fun _ x i => if i then 0 else -10 ^ 7 * x false

open Classical in
/-- When the component `false` reaches 1, set the component `true` to 1 and the other to 0. -/
noncomputable def alarm : EventCallback ℝ (Bool → ℝ) :=
  ⟨fun _ x => decide (1 ≤ x false), fun _ _ i => if i then 1 else 0⟩

/-- The initial state: `1e-9` in the component `false`. -/
noncomputable def tinyState : Bool → ℝ := fun i => if i then 0 else 1 / 10 ^ 9

noncomputable abbrev bSolver := dopri5Solver (Except PyErr) ℝ (Bool → ℝ) Unit

theorem stiff_first_step {k x' e : Bool → ℝ} {st} (h : bSolver.step (fun t x => .ok (stiffDecay t x)) tinyState 0 (1 / 10 ^ 4) none ()
    = .ok (.four k x' e st)) : 1 ≤ x' false := by
  cases h
  simp only [stiffDecay, tinyState, constructDopri5, dopri5Bsol, nth, nth2, Pi.add_apply, Pi.smul_apply, smul_eq_mul]
  norm_num

theorem stiff_rest_step {k x x' e : Bool → ℝ} {st} {t dt : ℝ} (hx : x false = 0)
    (h : bSolver.step (fun t x => .ok (stiffDecay t x)) x t dt none () = .ok (.four k x' e st)) : x' = x ∧ e = 0 := by
  have hz : ∀ t y, y false = 0 → stiffDecay t y = 0 := by
    intro t y hy
    funext i
    cases i <;> simp [stiffDecay, hy]
  have hk : stiffDecay t x = 0 := hz t x hx
  simp only [dopri5Solver, dopri5Step, rk7Step, firstStage, bind, Except.bind, pure, Except.pure, hk, smul_zero, add_zero,
    hz _ x hx] at h
  cases h
  exact ⟨rfl, rfl⟩

theorem stiff_initStep : initStep (m := Except PyErr) (pureField stiffDecay) (stiffDecay 0 tinyState) tinyState 0 5 (1 / 1000)
    (1 / 1000) = .ok (1 / 10 ^ 4) := by
  have hn : ∀ v : ℝ, 0 ≤ v → hairerNorm (fun i : Bool => if i then 0 else v) = v / Real.sqrt 2 := by
    intro v hv
    simp [hairerNorm, hairerNormOn, Real.sqrt_div (sq_nonneg v), Real.sqrt_sq hv]
  have h2 : 1 ≤ Real.sqrt 2 := by
    rw [Real.one_le_sqrt]; norm_num
  have h2' : Real.sqrt 2 ≤ 2 := by
    rw [Real.sqrt_le_left (by norm_num)]; norm_num
  have hpos : 0 < Real.sqrt 2 := by linarith
  set c : ℝ := 1 / 1000 + 1 / 10 ^ 9 * (1 / 1000) with hc
  have hc0 : 1 / 1000 ≤ c := by norm_num [hc]
  have hc1 : c ≤ 1 := by norm_num [hc]
  have hcp : 0 < c := by norm_num [hc]
  have e0 : (fun i => tinyState i / (1 / 1000 + |tinyState i| * (1 / 1000))) = fun i => if i then 0 else 1 / 10 ^ 9 / c := by
    funext i; cases i <;> norm_num [tinyState, hc]
  have e1 : hairerNorm (fun i => stiffDecay 0 tinyState i / (1 / 1000 + |tinyState i| * (1 / 1000))) =
      1 / 100 / c / Real.sqrt 2 := by
    have : (fun i => stiffDecay 0 tinyState i / (1 / 1000 + |tinyState i| * (1 / 1000))) =
        fun i => -(if i then 0 else 1 / 100 / c) := by
      funext i; cases i <;> norm_num [tinyState, stiffDecay, hc]
    rw [this, ← hn _ (by positivity)]
    simp [hairerNorm, hairerNormOn]
  have ht : initTrial (hairerNorm fun i => tinyState i / (1 / 1000 + |tinyState i| * (1 / 1000)))
      (1 / 100 / c / Real.sqrt 2) = 1 / 10 ^ 6 := by
    unfold initTrial
    rw [if_pos (Or.inl ?_)]
    rw [e0, hn _ (by positivity), div_lt_iff₀ hpos, div_lt_iff₀ hcp]
    nlinarith
  have e2 : hairerNorm (fun i => (stiffDecay (0 + 1 / 10 ^ 6) (fun i => tinyState i + 1 / 10 ^ 6 * stiffDecay 0 tinyState i) i -
      stiffDecay 0 tinyState i) / (1 / 1000 + |tinyState i| * (1 / 1000))) = 1 / 10 / c / Real.sqrt 2 := by
    have : (fun i => (stiffDecay (0 + 1 / 10 ^ 6) (fun i => tinyState i + 1 / 10 ^ 6 * stiffDecay 0 tinyState i) i -
        stiffDecay 0 tinyState i) / (1 / 1000 + |tinyState i| * (1 / 1000))) = fun i => if i then 0 else 1 / 10 / c := by
      funext i; cases i <;> norm_num [tinyState, stiffDecay, hc]
    rw [this, hn _ (by positivity)]
  simp only [initStep, pureField, bind, Except.bind, pure, Except.pure, e1, ht, e2]
  congr 1
  have hq : 1 / 100 / c / Real.sqrt 2 ≤ 1 / 10 / c / Real.sqrt 2 / (1 / 10 ^ 6) := by
    rw [le_div_iff₀ (by norm_num), div_mul_eq_mul_div, div_mul_eq_mul_div]
    gcongr
    norm_num
  have hlow : 1 / 10 ^ 15 < 1 / 100 / c / Real.sqrt 2 := by
    rw [lt_div_iff₀ hpos, lt_div_iff₀ hcp]
    nlinarith
  have hup : 1 / 10 / c / Real.sqrt 2 / (1 / 10 ^ 6) ≤ 10 ^ 8 := by
    rw [div_le_iff₀ (by norm_num), div_le_iff₀ hpos, div_le_iff₀ hcp]
    nlinarith
  unfold initSecond
  rw [if_neg (fun h => absurd h.1 (not_le.2 hlow)), max_eq_right hq, min_eq_left]
  · norm_num
  · have hd : 0 < 1 / 10 / c / Real.sqrt 2 / (1 / 10 ^ 6) := by positivity
    have h3 : (1 / 10 ^ 4 : ℝ) ^ 6 ≤ 1 / 100 / (1 / 10 / c / Real.sqrt 2 / (1 / 10 ^ 6)) := by
      rw [le_div_iff₀ hd]
      calc (1 / 10 ^ 4 : ℝ) ^ 6 * _ ≤ (1 / 10 ^ 4 : ℝ) ^ 6 * 10 ^ 8 := by gcongr
        _ ≤ _ := by norm_num
    calc (100 * (1 / 10 ^ 6) : ℝ) = ((1 / 10 ^ 4 : ℝ) ^ 6) ^ ((1 : ℝ) / (((5 : ℕ) : ℝ) + 1)) := by
          rw [← Real.rpow_natCast (1 / 10 ^ 4) 6, ← Real.rpow_mul (by norm_num)]
          norm_num
      _ ≤ _ := Real.rpow_le_rpow (by positivity) h3 (by norm_num)

theorem bisect_stop (cfg : HybridCfg (Except PyErr) ℝ (Bool → ℝ)) (dt : ℝ) (n : ℕ) (b : BState ℝ (Bool → ℝ))
    (h : ¬ cfg.eventTol < b.dtInner) : bisect cfg dt (n + 1) b = pure b := by
  rw [bisect, if_neg h]

/-- **C143 (refutation).** The system `x' = -1e7 x` with `x(0) = 1e-9`, a callback that fires when `x` reaches 1, and the default
tolerances of `odeint_hybrid`. The exact solution decays and stays at `1e-9` or below, more than 0.9 away from every point at which
the callback is active. Yet the callback fires at once: the first trial step is
far too long, its end point is wrong by a factor of `1e15`, and events are looked for before the error of the step is tested. The
jump recorded at `t = 0` sets the alarm, and the call returns with it. -/
theorem C143_spurious_refuted :
    odeintHybrid 3 (pureField stiffDecay) tinyState [0, 1 / 10 ^ 4] 1 bSolver [alarm] (1 / 1000) (1 / 1000) (1 / 10 ^ 4) true
      Finset.univ () = .ok (some ([0, 0, 0, 1 / 10 ^ 4],
        [tinyState, tinyState, fun i => if i then 1 else 0, fun i => if i then 1 else 0])) ∧
    (∃ y : ℝ → Bool → ℝ, y 0 = tinyState ∧ (∀ t, HasDerivAt y (stiffDecay t (y t)) t) ∧
      ∀ t ≥ 0, y t true = 0 ∧ 0 < y t false ∧ y t false ≤ 1 / 10 ^ 9) ∧
    ∀ c : Point Bool, ¬ Quiet [alarm] c → 9 / 10 < |c.2 false - tinyState false| := by
  refine ⟨?_, ⟨fun t i => if i then 0 else Real.exp (-10 ^ 7 * t) / 10 ^ 9, ?_, ?_, ?_⟩, ?_⟩
  · have hq : ∀ p : Point Bool, Quiet [alarm] p ↔ p.2 false < 1 := by
      intro p
      simp [Quiet, alarm]
    have hs := dopri5_fsalSolver (ι := Bool) ()
    obtain ⟨x0, j, dt, _, hj1, hj2, _, _, hinit, e⟩ := odeintHybrid_loop stiffDecay tinyState 0 (1 / 10 ^ 4) [1 / 10 ^ 4] rfl bSolver
      [alarm] (1 / 1000) (1 / 1000) (1 / 10 ^ 4) true Finset.univ ()
    obtain ⟨rfl, rfl⟩ := hj2 (Or.inr ((hq _).2 (by norm_num [tinyState])))
    obtain rfl : dt = 1 / 10 ^ 4 := by
      have := hinit.symm.trans stiff_initStep
      exact Except.ok.inj this
    rw [e]
    -- the jump
    set s0 := hybridInit 0 tinyState (stiffDecay 0 tinyState) (1 / 10 ^ 4) with hs0
    have hd : hybridDt [1 / 10 ^ 4] (1 / 10 ^ 4) s0 = (1 / 10 ^ 4, s0.dtOld, false, 0) := by
      norm_num [hybridDt, hs0, hybridInit]
    obtain ⟨k, x', e', st, q1, q2, hcase⟩ := hybridIter_cases (sel := Finset.univ) (atol := 1 / 1000) (rtol := 1 / 1000)
      (eventTol := 1 / 10 ^ 4) (cbs := [alarm]) hs [1 / 10 ^ 4] (1 / 10 ^ 4) s0 (Or.inr rfl)
    rw [hd] at q1 hcase
    have hx' := stiff_first_step q1
    rcases hcase with ⟨h, -⟩ | ⟨-, b, -, hbis, hr⟩
    · rw [hq] at h
      simp only at h
      linarith
    obtain rfl : bisectStart s0 (1 / 10 ^ 4) (eventStates [alarm] (s0.t + 1 / 10 ^ 4) x') = b := by
      rw [bisect_stop _ _ _ _ (lt_irrefl (1 / 10 ^ 4 : ℝ))] at hbis
      exact Except.ok.inj hbis
    rcases hr with ⟨hall, -⟩ | ⟨c, cb, -, hfa, -, hit⟩
    · have : alarm.checkEvent (s0.t + 1 / 10 ^ 4) x' = false := hall _ (by simp [bisectStart, eventStates])
      simp [alarm] at this
      linarith
    obtain ⟨i, hi, -⟩ := hfa
    obtain rfl : cb = alarm := by simpa using List.mem_of_getElem? hi
    rw [hybridLoop, if_pos ⟨by norm_num [hs0, hybridInit], by norm_num⟩, hit]
    -- the last step
    set s1 := afterJump s0 (1 / 10 ^ 4, s0.dtOld, false, 0)
      (bisectStart s0 (1 / 10 ^ 4) (eventStates [alarm] (s0.t + 1 / 10 ^ 4) x')) alarm with hs1
    have hd1 : hybridDt [1 / 10 ^ 4] (1 / 10 ^ 4) s1 = (1 / 10 ^ 4, s0.dtOld, false, 0) := by
      norm_num [hybridDt, hs1, hs0, hybridInit, afterJump, bisectStart]
    obtain ⟨k, x'', e'', st, r1, r2, hcase⟩ := hybridIter_cases (sel := Finset.univ) (atol := 1 / 1000) (rtol := 1 / 1000)
      (eventTol := 1 / 10 ^ 4) (cbs := [alarm]) hs [1 / 10 ^ 4] (1 / 10 ^ 4) s1 (Or.inl rfl)
    rw [hd1] at r1 hcase
    obtain ⟨rfl, rfl⟩ := stiff_rest_step (show s1.x false = 0 by simp [hs1, afterJump, alarm]) r1
    rcases hcase with ⟨-, hit1⟩ | ⟨h, -⟩
    swap
    · exact absurd ((hq _).2 (by simp [hs1, afterJump, alarm])) h
    have her : (hybridCfg stiffDecay bSolver () (1 / 1000) (1 / 1000) Finset.univ [alarm] (1 / 10 ^ 4)).errRatio s1.x s1.x 0 = 0 := by
      simp [hybridCfg, errorRatio, hairerNormOn, errorScaled]
    have ht1 : s1.t = 0 := by simp [hs1, hs0, afterJump, bisectStart, hybridInit]
    have hstep2 : hybridLoop (hybridCfg stiffDecay bSolver () (1 / 1000) (1 / 1000) Finset.univ [alarm] (1 / 10 ^ 4))
        [1 / 10 ^ 4] (1 / 10 ^ 4) 0 1 2 s1 = .ok (some (hybridFlow
          (hybridCfg stiffDecay bSolver () (1 / 1000) (1 / 1000) Finset.univ [alarm] (1 / 10 ^ 4)) s1 (1 / 10 ^ 4) s0.dtOld false 0
          k s1.x 0)) := by
      rw [hybridLoop, if_pos ⟨by rw [ht1]; norm_num, by norm_num⟩, show bSolver = dopri5Solver (Except PyErr) ℝ (Bool → ℝ) Unit from rfl,
        hit1]
      change hybridLoop _ _ _ _ _ 1 _ = _
      rw [hybridLoop, if_neg]
      · rfl
      · rw [hybridFlow, if_pos (by rw [her]; norm_num), ht1]
        norm_num
    refine (congrArg (Except.map _) hstep2).trans ?_
    rw [hybridFlow, if_pos (by rw [her]; norm_num)]
    have hx1 : s1.x = fun i => if i then 1 else 0 := by
      funext i
      cases i <;> simp [hs1, afterJump, alarm]
    simp only [Except.map, Option.map, hx1, ht1]
    simp [hs1, hs0, afterJump, bisectStart, hybridInit, alarm]
  · funext i
    cases i <;> simp [tinyState]
  · intro t
    refine hasDerivAt_pi.2 fun i => ?_
    cases i
    · have h1 : HasDerivAt (fun t : ℝ => Real.exp (-10 ^ 7 * t)) (Real.exp (-10 ^ 7 * t) * (-10 ^ 7 * 1)) t :=
        ((hasDerivAt_id t).const_mul (-10 ^ 7)).exp
      have h2 := h1.div_const (10 ^ 9)
      simp only [stiffDecay, Bool.false_eq_true, if_false]
      refine h2.congr_deriv ?_
      ring
    · simpa [stiffDecay] using hasDerivAt_const t (0 : ℝ)
  · intro t ht
    refine ⟨rfl, by simp only [Bool.false_eq_true, if_false]; positivity, ?_⟩
    simp only [Bool.false_eq_true, if_false]
    gcongr
    rw [Real.exp_le_one_iff]
    linarith
  · intro c hc
    have h1 : 1 ≤ c.2 false := by
      by_contra h
      exact hc (by simpa [Quiet, alarm] using h)
    rw [abs_of_pos] <;> norm_num [tinyState] <;> linarith

/-- The hypotheses of `C143_near_partial` are met: the ramp reset at 1, on `[0, 4]` with `event_tol = 1e-3`. -/
example : ∃ fuel ts xs x0 l, odeintHybrid fuel (pureField unitSpeed) (fun _ => 0) [0, 1, 4] 1 wSolver [ramp 1] (1 / 1000)
    (1 / 1000) (1 / 1000) false Finset.univ () = .ok (some (ts, xs)) ∧ ts.zip xs = (0, x0) :: l ∧
    NearTrace (1 / 1000) (165 / 100 * 1 * (1 / 1000)) [ramp 1] (0, x0) l := by
  obtain ⟨fuel, ts, xs, h⟩ := ramp_finishes
  obtain ⟨-, x0, l, -, h2, h3⟩ := C143_near_partial () unitSpeed 1 (by simp [unitSpeed]) (by norm_num) (fun _ => 0) 0 4 [1, 4]
    (by norm_num) rfl 1 [ramp 1] (ramp_persistent 1) _ _ _ (by norm_num) _ _ _ _ _ h
  exact ⟨fuel, ts, xs, x0, l, h, h2, h3⟩

/-- The same for `tsit5`, whose weights add up to a number `w` near 1. -/
theorem tsit5_unit_reach : ∃ w : ℝ, 0 < w ∧ w < 2 ∧ ∀ p q : Point Unit,
    FwdReach (tsit5Solver (Except PyErr) ℝ (Unit → ℝ) Unit) () unitSpeed p q → q.2 () = p.2 () + w * (q.1 - p.1) := by
  refine ⟨nth (constructTsit5 ℝ).bsol 0 + nth (constructTsit5 ℝ).bsol 1 + nth (constructTsit5 ℝ).bsol 2 +
    nth (constructTsit5 ℝ).bsol 3 + nth (constructTsit5 ℝ).bsol 4 + nth (constructTsit5 ℝ).bsol 5, ?_, ?_, ?_⟩
  · norm_num [constructTsit5, tsit5Bsol, nth]
  · norm_num [constructTsit5, tsit5Bsol, nth]
  intro p q h
  induction h with
  | refl => ring
  | @tail b c _ h ih =>
    have : c.2 () = b.2 () + (nth (constructTsit5 ℝ).bsol 0 + nth (constructTsit5 ℝ).bsol 1 + nth (constructTsit5 ℝ).bsol 2 +
        nth (constructTsit5 ℝ).bsol 3 + nth (constructTsit5 ℝ).bsol 4 + nth (constructTsit5 ℝ).bsol 5) * (c.1 - b.1) := by
      obtain ⟨-, k, e, st, h⟩ := h
      obtain ⟨bt, bx⟩ := b
      obtain ⟨ct, cx⟩ := c
      simp only at h
      generalize ct - bt = d at h ⊢
      cases h
      simp [unitSpeed]
      ring
    rw [this, ih]
    ring

example : ∃ fuel ts xs x0 l, odeintHybrid fuel (pureField unitSpeed) (fun _ => 0) [0, 1, 4] 1
    (tsit5Solver (Except PyErr) ℝ (Unit → ℝ) Unit) [ramp 1] (1 / 1000) (1 / 1000) (1 / 1000) false Finset.univ () =
      .ok (some (ts, xs)) ∧ ts.zip xs = (0, x0) :: l ∧
    NearTrace (1 / 1000) (759 / 100 * 1 * (1 / 1000)) [ramp 1] (0, x0) l := by
  obtain ⟨w, hw0, hw2, hw⟩ := tsit5_unit_reach
  have hpers : Persistent (tsit5Solver (Except PyErr) ℝ (Unit → ℝ) Unit) () unitSpeed [ramp 1] := by
    intro p q r hq hr hle hnq
    have h1 := hw p q hq
    have h2 := hw p r hr
    rw [ramp_quiet, not_lt] at hnq ⊢
    nlinarith
  obtain ⟨E, hE⟩ := tsit5_errorLinear (ι := Unit) ()
  obtain ⟨fuel, ts, xs, h⟩ := C142_dwell_partial (tsit5_fsalSolver (ι := Unit) ()) E hE (by norm_num [tsit5Solver]) rfl rfl rfl
    unitSpeed 1 (by simp [unitSpeed]) (fun _ => 0) 0 4 [1, 4] (by norm_num) rfl [ramp 1] hpers (1 / 1000) (1 / 1000) (1 / 1000) (1 / 2)
    (by norm_num) (by
      intro b c cb q _ _ _ hfa hq hlt
      obtain ⟨i, hi, -⟩ := hfa
      obtain rfl : cb = ramp 1 := by simpa using List.mem_of_getElem? hi
      rw [ramp_quiet, hw _ _ hq]
      simp only [ramp]
      nlinarith) (by norm_num) (by norm_num) (by norm_num) false Finset.univ 1
  obtain ⟨-, x0, l, -, h2, h3⟩ := C143_near_tsit5_partial () unitSpeed 1 (by simp [unitSpeed]) (by norm_num) (fun _ => 0) 0 4
    [1, 4] (by norm_num) rfl 1 [ramp 1] hpers _ _ _ (by norm_num) _ _ _ _ _ h
  exact ⟨fuel, ts, xs, x0, l, h, h2, h3⟩

end Torchdyn
