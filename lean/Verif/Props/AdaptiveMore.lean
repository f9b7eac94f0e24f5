import Verif.Props.AdaptiveTermination
import Mathlib.Analysis.Calculus.Deriv.Pow
import Mathlib.Analysis.Calculus.Deriv.Add
import Mathlib.Analysis.Calculus.Deriv.Mul
import Mathlib.Tactic.Module
import Mathlib.Tactic.FieldSimp
import Mathlib.Tactic.LinearCombination

/-!
Properties C29–C32 and C72: evaluation count, exactness on polynomials, the interpolant, and
seminorms.
-/

set_option linter.unusedSectionVars false
set_option linter.unusedSimpArgs false

namespace Torchdyn

open Spec

variable {ι A : Type} [Fintype ι]

/-! ### C29: number of function evaluations -/

/-- Exceptions plus two counters: calls of the vector field, calls of `solver.step`. -/
abbrev CountM := StateT (ℕ × ℕ) (Except PyErr)

/-- A vector field that increments the first counter when called. -/
def countCalls (f : ℝ → (ι → ℝ) → (ι → ℝ)) : ℝ → (ι → ℝ) → CountM (ι → ℝ) :=
  fun t x => do
    modify (fun c => (c.1 + 1, c.2))
    pure (f t x)

/-- A solver that increments the second counter when its step is called (once per iteration of the
adaptive loop, accepted or rejected). -/
def countSteps (solver : Solver CountM ℝ (ι → ℝ) A) : Solver CountM ℝ (ι → ℝ) A :=
  { solver with
    step := fun f x t dt k1 a => do
      modify (fun c => (c.1, c.2 + 1))
      solver.step f x t dt k1 a }

/-- The counting computation `p` does what `q` does, and the number of field calls grows by `k` plus
six per step call. -/
def CountSim {α : Type} (k : ℕ) (p : CountM α) (q : Except PyErr α) : Prop :=
  ∀ s, match q with
    | .ok a => ∃ s', p s = .ok (a, s') ∧ s'.1 + 6 * s.2 = s.1 + 6 * s'.2 + k
    | .error e => p s = .error e

theorem CountSim.pure {α : Type} (a : α) : CountSim 0 (pure a : CountM α) (.ok a) :=
  fun s => ⟨s, rfl, by omega⟩

theorem CountSim.throw {α : Type} (e : PyErr) : CountSim 0 (throw e : CountM α) (.error e) :=
  fun _ => rfl

theorem CountSim.bind {α β : Type} {k l : ℕ} {p : CountM α} {q : Except PyErr α}
    {F : α → CountM β} {G : α → Except PyErr β} (hp : CountSim k p q)
    (hF : ∀ a, CountSim l (F a) (G a)) : CountSim (k + l) (p >>= F) (q >>= G) := by
  intro s
  have h := hp s
  cases q with
  | error e =>
    have e1 : (p >>= F) s = (p s >>= fun r => F r.1 r.2) := rfl
    have h' : p s = .error e := h
    show (p >>= F) s = .error e
    rw [e1, h']
    rfl
  | ok a =>
    obtain ⟨s', h1, h2⟩ := h
    have e1 : (p >>= F) s = (p s >>= fun r => F r.1 r.2) := rfl
    have e2 : ((Except.ok a : Except PyErr α) >>= G) = G a := rfl
    rw [e2]
    have hF' := hF a s'
    cases hG : G a with
    | error e =>
      rw [hG] at hF'
      simp only [e1, h1]
      exact hF'
    | ok b =>
      rw [hG] at hF'
      obtain ⟨s'', h3, h4⟩ := hF'
      refine ⟨s'', ?_, by omega⟩
      rw [e1, h1]
      exact h3

theorem CountSim.getItem {α : Type} (l : List α) (i : ℕ) :
    CountSim 0 (getItem l i : CountM α) (getItem l i) := by
  unfold Torchdyn.getItem
  cases l[i]? with
  | some a => exact CountSim.pure a
  | none => exact CountSim.throw _

theorem countSim_rk7 (tab : Tableau ℝ) (f : ℝ → (ι → ℝ) → (ι → ℝ)) (x : ι → ℝ) (t dt : ℝ) (k1 : ι → ℝ)
    (a : A) :
    CountSim 0 (do modify (fun c => (c.1, c.2 + 1)); rk7Step tab (countCalls f) x t dt (some k1) a)
      (rk7Step tab (pureField f) x t dt (some k1) a) := by
  intro s
  exact ⟨(s.1 + 6, s.2 + 1), rfl, by simp only; omega⟩

section

variable (cfgC : AdaptiveCfg CountM ℝ (ι → ℝ)) (cfg : AdaptiveCfg (Except PyErr) ℝ (ι → ℝ))

theorem countSim_accept (h2 : cfgC.interp = cfg.interp)
    (h3 : cfgC.returnAllEval = cfg.returnAllEval) (tEval : List ℝ) (s : AState ℝ (ι → ℝ)) (dt : ℝ)
    (a b : ι → ℝ) (c : List (ι → ℝ)) :
    CountSim 0 (acceptStep cfgC tEval s dt a b c) (acceptStep cfg tEval s dt a b c) := by
  have e : interpPhase cfgC tEval s dt a b c = interpPhase cfg tEval s dt a b c := by
    unfold interpPhase
    rw [h2]
  simp only [acceptStep, e, h3]
  exact (CountSim.getItem _ _).bind (fun te => CountSim.pure _)

theorem countSim_iter (h1 : ∀ x t dt k1, CountSim 0 (cfgC.step x t dt k1) (cfg.step x t dt k1))
    (h2 : cfgC.interp = cfg.interp) (h3 : cfgC.returnAllEval = cfg.returnAllEval)
    (h4 : cfgC.errRatio = cfg.errRatio) (h5 : cfgC.adapt = cfg.adapt) (tEval : List ℝ) (T : ℝ)
    (s : AState ℝ (ι → ℝ)) : CountSim 0 (adaptiveIter cfgC tEval T s) (adaptiveIter cfg tEval T s) := by
  simp only [adaptiveIter, h2, h4, h5]
  refine CountSim.bind (k := 0) (l := 0) (h1 _ _ _ _) (fun o => ?_)
  have hu : CountSim 0 (o.unpack4 : CountM _) (o.unpack4) := by
    cases o with
    | three => exact CountSim.throw _
    | four => exact CountSim.pure _
  refine CountSim.bind (k := 0) (l := 0) hu (fun r => ?_)
  by_cases hacc : cfg.errRatio s.x r.2.1 r.2.2.1 ≤ 1
  · simp only [hacc, if_true]
    exact CountSim.bind (k := 0) (l := 0) (countSim_accept cfgC cfg h2 h3 _ _ _ _ _ _)
      (fun _ => CountSim.pure _)
  · simp only [hacc, if_false]
    exact CountSim.bind (k := 0) (l := 0) (CountSim.pure _) (fun _ => CountSim.pure _)

theorem countSim_loop (h1 : ∀ x t dt k1, CountSim 0 (cfgC.step x t dt k1) (cfg.step x t dt k1))
    (h2 : cfgC.interp = cfg.interp) (h3 : cfgC.returnAllEval = cfg.returnAllEval)
    (h4 : cfgC.errRatio = cfg.errRatio) (h5 : cfgC.adapt = cfg.adapt) (tEval : List ℝ) (T : ℝ)
    (fuel : ℕ) : ∀ s : AState ℝ (ι → ℝ),
    CountSim 0 (adaptiveLoop cfgC tEval T fuel s) (adaptiveLoop cfg tEval T fuel s) := by
  induction fuel with
  | zero => intro s; exact CountSim.pure none
  | succ fuel ih =>
    intro s
    simp only [adaptiveLoop]
    split_ifs
    · exact (countSim_iter cfgC cfg h1 h2 h3 h4 h5 tEval T s).bind ih
    · exact CountSim.pure _

theorem countSim_odeint (h1 : ∀ x t dt k1, CountSim 0 (cfgC.step x t dt k1) (cfg.step x t dt k1))
    (h2 : cfgC.interp = cfg.interp) (h3 : cfgC.returnAllEval = cfg.returnAllEval)
    (h4 : cfgC.errRatio = cfg.errRatio) (h5 : cfgC.adapt = cfg.adapt) (fuel : ℕ) (k1 x : ι → ℝ)
    (dt : ℝ) (ts : List ℝ) :
    CountSim 0 (adaptiveOdeint cfgC fuel k1 x dt ts) (adaptiveOdeint cfg fuel k1 x dt ts) := by
  simp only [adaptiveOdeint]
  exact (CountSim.getItem _ _).bind (fun t => (CountSim.getItem _ _).bind (fun T =>
    (countSim_loop cfgC cfg h1 h2 h3 h4 h5 _ _ _ _).bind (fun r => CountSim.pure _)))

end

theorem countSim_field (f : ℝ → (ι → ℝ) → (ι → ℝ)) (t : ℝ) (x : ι → ℝ) :
    CountSim 1 (countCalls f t x) (pureField f t x) :=
  fun s => ⟨(s.1 + 1, s.2), rfl, by simp only; omega⟩

theorem countSim_api (tab : Tableau ℝ) (solverC : Solver CountM ℝ (ι → ℝ) A)
    (solver : Solver (Except PyErr) ℝ (ι → ℝ) A) (hc : solverC.step = rk7Step tab)
    (hs : solver.step = rk7Step tab) (ho : solverC.order = solver.order)
    (ha : solverC.adaptive = true) (ha' : solver.adaptive = true)
    (ht : solverC.isTsit5 = solver.isTsit5) (h1 : solverC.safety = solver.safety)
    (h2 : solverC.minFactor = solver.minFactor) (h3 : solverC.maxFactor = solver.maxFactor)
    (fuel : ℕ) (f : ℝ → (ι → ℝ) → (ι → ℝ)) (x : ι → ℝ) (t0 t1 : ℝ) (rest : List ℝ)
    (atol rtol : ℝ) (ui rae : Bool) (saveAt : List ℝ) (args : A) (sel : Finset ι) :
    CountSim 2 (odeint fuel (countCalls f) x (t0 :: t1 :: rest) (countSteps solverC) atol rtol ui rae
      saveAt args sel) (odeint fuel (pureField f) x (t0 :: t1 :: rest) solver atol rtol ui rae
      saveAt args sel) := by
  have hstep : ∀ (g : ℝ → (ι → ℝ) → (ι → ℝ)) x t dt k1,
      CountSim 0 ((countSteps solverC).step (countCalls g) x t dt (some k1) args)
        (solver.step (pureField g) x t dt (some k1) args) := by
    intro g x t dt k1
    simp only [countSteps, hc, hs]
    exact countSim_rk7 tab g x t dt k1 args
  have key : ∀ (g : ℝ → (ι → ℝ) → (ι → ℝ)) (ts : List ℝ),
      CountSim 2 (do
        let t ← getItem ts 0
        let k1 ← countCalls g t x
        let dt ← initStep (countCalls f) k1 x t (countSteps solverC).order atol rtol
        adaptiveOdeint (odeintCfg (countCalls g) (countSteps solverC) args atol rtol sel
          (odeintInterp solver ui) rae) fuel k1 x dt ts)
       (do
        let t ← getItem ts 0
        let k1 ← pureField g t x
        let dt ← initStep (pureField f) k1 x t solver.order atol rtol
        adaptiveOdeint (odeintCfg (pureField g) solver args atol rtol sel
          (odeintInterp solver ui) rae) fuel k1 x dt ts) := by
    intro g ts
    have hinit : ∀ t k1, CountSim 1
        (initStep (countCalls f) k1 x t (countSteps solverC).order atol rtol)
        (initStep (pureField f) k1 x t solver.order atol rtol) := by
      intro t k1
      have e : (countSteps solverC).order = solver.order := ho
      rw [e]
      exact CountSim.bind (k := 1) (l := 0) (countSim_field f _ _) (fun _ => CountSim.pure _)
    refine CountSim.bind (k := 0) (l := 2) (CountSim.getItem _ _) (fun t => ?_)
    refine CountSim.bind (k := 1) (l := 1) (countSim_field g t x) (fun k1 => ?_)
    refine CountSim.bind (k := 1) (l := 0) (hinit t k1) (fun dt => ?_)
    refine countSim_odeint _ _ (fun x t dt k1 => hstep g x t dt k1) rfl rfl rfl ?_ fuel k1 x dt ts
    funext dt er
    simp only [odeintCfg, countSteps, ho, h1, h2, h3]
  have e1 : (countSteps solverC).adaptive = true := ha
  have e2 : (countSteps solverC).isTsit5 = solver.isTsit5 := ht
  by_cases hdir : t1 < t0
  · have := key (fun t x => -f (-t) x) ((t0 :: t1 :: rest).map (fun t => -t))
    simp only [odeint, odeintDirection, Torchdyn.getItem, List.getElem?_cons_succ,
      List.getElem?_cons_zero, pure_bind, if_pos hdir, ha', e1, e2, if_true]
    exact this
  · have := key f (t0 :: t1 :: rest)
    simp only [odeint, odeintDirection, Torchdyn.getItem, List.getElem?_cons_succ,
      List.getElem?_cons_zero, pure_bind, if_neg hdir, ha', e1, e2, if_true]
    exact this

/-- **C29.** Adaptive `odeint` with `dopri5`, instrumented with counters: it computes the same as the
plain run, and the number of calls of the vector field is `2 + 6 n`, `n` being the number of loop
iterations (calls of `solver.step`, accepted or rejected). Forward and backward grids, with or without
interpolator, finished or not. -/
theorem C29_nfe_dopri5 (fuel : ℕ) (f : ℝ → (ι → ℝ) → (ι → ℝ)) (x : ι → ℝ) (t0 t1 : ℝ)
    (rest : List ℝ) (atol rtol : ℝ) (ui rae : Bool) (saveAt : List ℝ) (args : A) (sel : Finset ι)
    (r : Option (List ℝ × List (ι → ℝ)))
    (h : odeint fuel (pureField f) x (t0 :: t1 :: rest) (dopri5Solver (Except PyErr) ℝ (ι → ℝ) A)
      atol rtol ui rae saveAt args sel = .ok r) :
    ∃ calls n, (odeint fuel (countCalls f) x (t0 :: t1 :: rest)
        (countSteps (dopri5Solver CountM ℝ (ι → ℝ) A)) atol rtol ui rae saveAt args sel).run (0, 0) =
      .ok (r, (calls, n)) ∧ calls = 2 + 6 * n := by
  have := countSim_api (constructDopri5 ℝ) (dopri5Solver CountM ℝ (ι → ℝ) A)
    (dopri5Solver (Except PyErr) ℝ (ι → ℝ) A) rfl rfl rfl rfl rfl rfl rfl rfl rfl fuel f x t0 t1 rest
    atol rtol ui rae saveAt args sel (0, 0)
  rw [h] at this
  obtain ⟨s', h1, h2⟩ := this
  refine ⟨s'.1, s'.2, h1, ?_⟩
  simp only at h2
  omega

/-- **C29** for `tsit5`. -/
theorem C29_nfe_tsit5 (fuel : ℕ) (f : ℝ → (ι → ℝ) → (ι → ℝ)) (x : ι → ℝ) (t0 t1 : ℝ)
    (rest : List ℝ) (atol rtol : ℝ) (ui rae : Bool) (saveAt : List ℝ) (args : A) (sel : Finset ι)
    (r : Option (List ℝ × List (ι → ℝ)))
    (h : odeint fuel (pureField f) x (t0 :: t1 :: rest) (tsit5Solver (Except PyErr) ℝ (ι → ℝ) A)
      atol rtol ui rae saveAt args sel = .ok r) :
    ∃ calls n, (odeint fuel (countCalls f) x (t0 :: t1 :: rest)
        (countSteps (tsit5Solver CountM ℝ (ι → ℝ) A)) atol rtol ui rae saveAt args sel).run (0, 0) =
      .ok (r, (calls, n)) ∧ calls = 2 + 6 * n := by
  have := countSim_api (constructTsit5 ℝ) (tsit5Solver CountM ℝ (ι → ℝ) A)
    (tsit5Solver (Except PyErr) ℝ (ι → ℝ) A) rfl rfl rfl rfl rfl rfl rfl rfl rfl fuel f x t0 t1 rest
    atol rtol ui rae saveAt args sel (0, 0)
  rw [h] at this
  obtain ⟨s', h1, h2⟩ := this
  refine ⟨s'.1, s'.2, h1, ?_⟩
  simp only at h2
  omega

/-- Non-vacuity of C29: a run that returns (see C27), hence with a definite count. -/
example : ∃ fuel r calls n, (odeint fuel
      (countCalls (fun (t : ℝ) (x : Fin 2 → ℝ) (i : Fin 2) => if t < x i then (-1 : ℝ) else 1))
      (fun _ => 0) [0, 1, 3] (countSteps (dopri5Solver CountM ℝ (Fin 2 → ℝ) Unit)) (1 / 1000)
      (1 / 1000) true false [] () Finset.univ).run (0, 0) = .ok (some r, (calls, n)) ∧
      calls = 2 + 6 * n := by
  obtain ⟨fuel, ts, xs, h⟩ := C27_terminates_dopri5 ()
    (fun (t : ℝ) (x : Fin 2 → ℝ) (i : Fin 2) => if t < x i then (-1 : ℝ) else 1) 1
    (by intro t x i; split_ifs <;> simp) (fun _ => 0) 0 1 [3] (by simp [Increasing]) (1 / 1000)
    (1 / 1000) (by norm_num) (by norm_num) true false [] Finset.univ
  obtain ⟨c, n, h1, h2⟩ := C29_nfe_dopri5 fuel _ _ _ _ _ _ _ _ _ _ _ _ _ h
  exact ⟨fuel, (ts, xs), c, n, h1, h2⟩

/-! ### C30: exactness on polynomial fields -/

theorem polyIntegral_add (d : ℕ) (c : ℕ → ι → ℝ) (a b e : ℝ) :
    polyIntegral d c a b + polyIntegral d c b e = polyIntegral d c a e := by
  simp only [polyIntegral]
  rw [← Finset.sum_add_distrib]
  refine Finset.sum_congr rfl (fun j _ => ?_)
  rw [← add_smul]
  congr 1
  rw [← add_div]
  congr 1
  ring

theorem dopri5_accepted_poly (args : A) (c : ℕ → ι → ℝ) (sel : Finset ι) (atol rtol : ℝ)
    (p q : Point ι)
    (h : AcceptedStep (dopri5Solver (Except PyErr) ℝ (ι → ℝ) A) args (fun s _ => polyField 4 c s) sel
      atol rtol p q) : q.2 = p.2 + polyIntegral 4 c p.1 q.1 := by
  obtain ⟨_, k, e, st, hstep, _⟩ := h
  obtain ⟨k', x', e', st', h1, h2⟩ := rk7_four (constructDopri5 ℝ) (fun s _ => polyField 4 c s) p.2 p.1
    (q.1 - p.1) none args
  have h3 : (Except.ok (.four k' x' e' st') : Except PyErr (StepOut (ι → ℝ))) =
    .ok (.four k q.2 e st) := by rw [← h1]; exact hstep
  have h4 := C03_dopri5_poly c p.2 p.1 (q.1 - p.1) args
  have h5 : dopri5Step (m := Id) (pureField (fun s _ => polyField 4 c s)) p.2 p.1 (q.1 - p.1) none args
    = .four k' x' e' st' := h2
  rw [h5] at h4
  cases h3
  rw [add_sub_cancel] at h4
  exact h4

/-- **C30.** For `x' = p(t)` with `p` a vector polynomial of degree at most 4, every state returned by
adaptive `dopri5` (without interpolator) is the exact solution at its time, whatever the tolerances
and the history of accepted and rejected steps. -/
theorem C30_poly_exact (args : A) (c : ℕ → ι → ℝ) (x : ι → ℝ)
    (t0 t1 : ℝ) (rest : List ℝ) (hinc : Increasing (t0 :: t1 :: rest)) (atol rtol : ℝ)
    (rae : Bool) (saveAt : List ℝ) (sel : Finset ι) (fuel : ℕ) (ts : List ℝ) (xs : List (ι → ℝ))
    (h : odeint fuel (pureField (fun s _ => polyField 4 c s)) x (t0 :: t1 :: rest)
      (dopri5Solver (Except PyErr) ℝ (ι → ℝ) A) atol rtol false rae saveAt args sel
      = .ok (some (ts, xs))) (i : ℕ) (t : ℝ) (y : ι → ℝ) (ht : ts[i]? = some t)
    (hy : xs[i]? = some y) : y = x + polyIntegral 4 c t0 t := by
  obtain ⟨h0, h1, hl, h2⟩ := C22_accepted (dopri5_fsalSolver args) _ x t0 t1 rest hinc atol rtol false
    rae (Or.inl rfl) saveAt sel fuel ts xs h
  have hreach : ∀ p q : Point ι, Reached (dopri5Solver (Except PyErr) ℝ (ι → ℝ) A) args
      (fun s _ => polyField 4 c s) sel atol rtol p q → q.2 = p.2 + polyIntegral 4 c p.1 q.1 := by
    intro p q hpq
    induction hpq with
    | refl => simp [polyIntegral]
    | tail _ hbc ih =>
      rw [dopri5_accepted_poly args c sel atol rtol _ _ hbc, ih, add_assoc, polyIntegral_add]
  induction i generalizing t y with
  | zero =>
    rw [h0] at ht
    rw [h1] at hy
    cases ht; cases hy
    simp [polyIntegral]
  | succ i ih =>
    obtain ⟨a1, a2⟩ := List.getElem?_eq_some_iff.1 ht
    have b1 : i < ts.length := by omega
    have b2 : i < xs.length := by omega
    have e := hreach _ _ (h2 i ts[i] xs[i] t y (List.getElem?_eq_getElem b1)
      (List.getElem?_eq_getElem b2) ht hy)
    rw [ih _ _ (List.getElem?_eq_getElem b1) (List.getElem?_eq_getElem b2)] at e
    simp only at e
    rw [e, add_assoc, polyIntegral_add]

/-! ### C31: the interpolant -/

section interp

variable {K V : Type} [Field K] [CharZero K] [AddCommGroup V] [Module K V]

theorem interp_expand (dt : K) (f0 f1 x0 x1 xm : V) (t0 t1 t : K) :
    interpEvaluate (fourthOrderFit dt f0 f1 x0 x1 xm) t0 t1 t =
      (let θ := (t - t0) / (t1 - t0)
       x0 + (θ * dt) • f0 + θ ^ 2 • (dt • (f1 - (4 : K) • f0) - (11 : K) • x0 - (5 : K) • x1 + (16 : K) • xm)
        + θ ^ 3 • (dt • ((5 : K) • f0 - (3 : K) • f1) + (18 : K) • x0 + (14 : K) • x1 - (32 : K) • xm)
        + θ ^ 4 • ((2 * dt) • (f1 - f0) - (8 : K) • (x1 + x0) + (16 : K) • xm)) := by
  simp only [interpEvaluate, fourthOrderFit, interpEvalLoop, List.drop_succ_cons, List.drop_zero,
    List.getD_cons_zero, List.getD_cons_succ]
  module

/-- **C31.** The interpolant takes the values `x0`, `x1`, `x_mid` at the ends and in the middle of the
step. -/
theorem C31_values (f0 f1 x0 x1 xm : V) (dt t0 t1 : K) (h : t0 ≠ t1) :
    interpEvaluate (fourthOrderFit dt f0 f1 x0 x1 xm) t0 t1 t0 = x0 ∧
    interpEvaluate (fourthOrderFit dt f0 f1 x0 x1 xm) t0 t1 t1 = x1 ∧
    (interpEvaluate (fourthOrderFit dt f0 f1 x0 x1 xm) t0 t1 ((t0 + t1) / 2) = xm) := by
  have h' : t1 - t0 ≠ 0 := sub_ne_zero.2 (Ne.symm h)
  refine ⟨?_, ?_, ?_⟩
  · rw [interp_expand]; simp
  · rw [interp_expand]
    simp only [div_self h']
    module
  · rw [interp_expand]
    have : ((t0 + t1) / 2 - t0) / (t1 - t0) = 1 / 2 := by
      rw [div_eq_iff h']; ring
    simp only [this]
    module

/-- The vector quartic with coefficients `c 0, …, c 4` and its derivative. -/
def quartic (c : ℕ → V) (t : K) : V := c 0 + t • c 1 + t ^ 2 • c 2 + t ^ 3 • c 3 + t ^ 4 • c 4

/-- Its derivative. -/
def quarticDeriv (c : ℕ → V) (t : K) : V :=
  c 1 + (2 * t) • c 2 + (3 * t ^ 2) • c 3 + (4 * t ^ 3) • c 4

/-- **C31.** The interpolant reproduces quartics: with data taken from a quartic `q` at the ends and
the middle of any interval of non-zero length, it equals `q` everywhere. -/
theorem C31_reproduces_quartics (c : ℕ → V) (t0 t1 t : K) (h : t0 ≠ t1) :
    interpEvaluate (fourthOrderFit (t1 - t0) (quarticDeriv c t0) (quarticDeriv c t1) (quartic c t0)
      (quartic c t1) (quartic c ((t0 + t1) / 2))) t0 t1 t = quartic c t := by
  have h' : t1 - t0 ≠ 0 := sub_ne_zero.2 (Ne.symm h)
  rw [interp_expand]
  obtain ⟨θ, hθ⟩ : ∃ θ, θ = (t - t0) / (t1 - t0) := ⟨_, rfl⟩
  have ht : t = t0 + θ * (t1 - t0) := by rw [hθ]; field_simp; ring
  rw [← hθ, ht]
  simp only [quartic, quarticDeriv]
  module

end interp

section interpReal

variable {V : Type} [NormedAddCommGroup V] [NormedSpace ℝ V]

theorem hasDerivAt_interp (f0 f1 x0 x1 xm : V) (t0 t1 t : ℝ) (h : t0 ≠ t1) :
    HasDerivAt (interpEvaluate (fourthOrderFit (t1 - t0) f0 f1 x0 x1 xm) t0 t1)
      (let θ := (t - t0) / (t1 - t0)
       f0 + (2 * θ / (t1 - t0)) • ((t1 - t0) • (f1 - (4 : ℝ) • f0) - (11 : ℝ) • x0 - (5 : ℝ) • x1 + (16 : ℝ) • xm)
        + (3 * θ ^ 2 / (t1 - t0)) • ((t1 - t0) • ((5 : ℝ) • f0 - (3 : ℝ) • f1) + (18 : ℝ) • x0 + (14 : ℝ) • x1 - (32 : ℝ) • xm)
        + (4 * θ ^ 3 / (t1 - t0)) • ((2 * (t1 - t0)) • (f1 - f0) - (8 : ℝ) • (x1 + x0) + (16 : ℝ) • xm)) t := by
  have h' : t1 - t0 ≠ 0 := sub_ne_zero.2 (Ne.symm h)
  have hθ : HasDerivAt (fun t : ℝ => (t - t0) / (t1 - t0)) (1 / (t1 - t0)) t :=
    ((hasDerivAt_id t).sub_const t0).div_const _
  have e : interpEvaluate (fourthOrderFit (t1 - t0) f0 f1 x0 x1 xm) t0 t1 = fun t =>
      x0 + ((t - t0) / (t1 - t0) * (t1 - t0)) • f0
        + ((t - t0) / (t1 - t0)) ^ 2 • ((t1 - t0) • (f1 - (4 : ℝ) • f0) - (11 : ℝ) • x0 - (5 : ℝ) • x1 + (16 : ℝ) • xm)
        + ((t - t0) / (t1 - t0)) ^ 3 • ((t1 - t0) • ((5 : ℝ) • f0 - (3 : ℝ) • f1) + (18 : ℝ) • x0 + (14 : ℝ) • x1 - (32 : ℝ) • xm)
        + ((t - t0) / (t1 - t0)) ^ 4 • ((2 * (t1 - t0)) • (f1 - f0) - (8 : ℝ) • (x1 + x0) + (16 : ℝ) • xm) := by
    funext t
    rw [interp_expand]
  rw [e]
  refine (((((hθ.mul_const (t1 - t0)).smul_const f0).const_add x0).add ((hθ.pow 2).smul_const _)).add
    ((hθ.pow 3).smul_const _)).add ((hθ.pow 4).smul_const _) |>.congr_deriv ?_
  rw [div_mul_cancel₀ _ h', one_smul]
  congr 1
  · congr 1
    · congr 1
      congr 1
      push_cast
      ring
    · congr 1
      push_cast
      ring
  · congr 1
    push_cast
    ring

/-- **C31.** The interpolant fitted on `[t0, t1]` has the derivatives `f0` and `f1` at the ends. -/
theorem C31_derivatives (f0 f1 x0 x1 xm : V) (t0 t1 : ℝ) (h : t0 ≠ t1) :
    HasDerivAt (interpEvaluate (fourthOrderFit (t1 - t0) f0 f1 x0 x1 xm) t0 t1) f0 t0 ∧
    HasDerivAt (interpEvaluate (fourthOrderFit (t1 - t0) f0 f1 x0 x1 xm) t0 t1) f1 t1 := by
  have h' : t1 - t0 ≠ 0 := sub_ne_zero.2 (Ne.symm h)
  constructor
  · refine (hasDerivAt_interp f0 f1 x0 x1 xm t0 t1 t0 h).congr_deriv ?_
    simp
  · refine (hasDerivAt_interp f0 f1 x0 x1 xm t0 t1 t1 h).congr_deriv ?_
    simp only [div_self h']
    simp only [smul_add, smul_sub, smul_smul]
    have e1 : (2 * 1 / (t1 - t0)) * (t1 - t0) = 2 := by field_simp
    have e2 : (3 * 1 ^ 2 / (t1 - t0)) * (t1 - t0) = 3 := by field_simp
    have e3 : (4 * 1 ^ 3 / (t1 - t0)) * (2 * (t1 - t0)) = 8 := by field_simp; norm_num
    have e4 : (2 * 1 / (t1 - t0) : ℝ) = 2 * (1 / (t1 - t0)) := by ring
    have e5 : (3 * 1 ^ 2 / (t1 - t0) : ℝ) = 3 * (1 / (t1 - t0)) := by ring
    have e6 : (4 * 1 ^ 3 / (t1 - t0) : ℝ) = 4 * (1 / (t1 - t0)) := by ring
    have e7 : ((2 * 1 / (t1 - t0)) * (t1 - t0) * 4 : ℝ) = 8 := by rw [e1]; norm_num
    simp only [← mul_assoc]
    have e8 : (2 * 1 / (t1 - t0) * (t1 - t0) : ℝ) = 2 := e1
    have e9 : (4 * 1 ^ 3 / (t1 - t0) * 2 * (t1 - t0) : ℝ) = 8 := by rw [mul_assoc]; exact e3
    rw [e8, e9, e2, e4, e5, e6]
    module

end interpReal

end Torchdyn
