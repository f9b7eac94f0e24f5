import Verif.Proofs.Sde
import Verif.Spec.Sde
import Verif.Props.FixedStep
import Mathlib.Analysis.SpecialFunctions.Pow.Real

/-!
Properties C43–C46: stochastic differential equations.

The drift and the diffusion are arbitrary functions; the Brownian path is an arbitrary function `W` of time
of which the solvers see the increments. `sqrt` is any function that is the square root on positive numbers.
-/

set_option linter.unusedSectionVars false
set_option linter.unusedSimpArgs false

namespace Torchdyn

open Spec

variable {K V : Type} [Field K] [LinearOrder K] [IsStrictOrderedRing K] [CommRing V] [Algebra K V]

/-- An SDE with drift `f` and diffusion `g`. -/
def pureSde {m : Type → Type} [Monad m] (f g : K → V → V) (noise type : Option String) :
    SdeFunc m K V :=
  ⟨fun t x => pure (f t x), fun t x => pure (g t x), noise, type⟩

/-- A Brownian motion object for the path `W`. -/
def pathBm {m : Type → Type} [Monad m] (W : K → V) : K → K → m V := fun a b => pure (W b - W a)

/-- A Brownian motion object for the path `W` that records the intervals it is asked for. -/
def loggedBm (W : K → V) : K → K → StateT (List (K × K)) (Except PyErr) V := fun a b => do
  modify (· ++ [(a, b)])
  pure (W b - W a)

theorem isSqrt_real : IsSqrt Real.sqrt := fun _ h =>
  ⟨Real.sqrt_pos.2 h, Real.mul_self_sqrt h.le⟩

/-! ### Whole runs -/

/-- `sdeint` by solver name is `_fixed_sdeint` with the solver's step. -/
theorem sdeint_name {m : Type → Type} [Monad m] [LawfulMonad m] [MonadExcept PyErr m] (sqrt : K → K)
    (f g : K → V → V) (bm : K → K → m V) {name : String} {noise type : Option String}
    (h : Accepts name noise type) (x : V) (tSpan : List K)
    (P : (V → K → K → m (StepOut V)) → Prop)
    (h1 : name = "euler" → P (eulerMaruyamaStep (pureSde f g noise type) bm))
    (h2 : name = "eulerHeun" → P (eulerHeunStep (pureSde f g noise type) bm))
    (h3 : name = "milstein_ito" → P (milsteinStep sqrt itoTerm (pureSde f g noise type) bm))
    (h4 : name = "milstein_stratonovich" →
      P (milsteinStep sqrt stratonovichTerm (pureSde f g noise type) bm)) :
    ∃ step, P step ∧ sdeint sqrt (.sdeFunc (pureSde f g noise type)) x tSpan (.inl name) bm [] =
      fixedSdeint torchIsclose step x tSpan tSpan := by
  cases h with
  | euler n hn =>
    refine ⟨_, h1 rfl, ?_⟩
    have e : (sdeStrToSolver sqrt "euler" (pureSde f g (some n) (some "ito")) bm : m _) =
        pure ⟨false, eulerMaruyamaStep (pureSde f g (some n) (some "ito")) bm⟩ := by
      have : (sdeStrToSolver sqrt "euler" (pureSde f g (some n) (some "ito")) bm : m _) =
          mkSdeSolver sqrt .eulerMaruyama (pureSde f g (some n) (some "ito")) bm := rfl
      rw [this]
      simp [mkSdeSolver, checkTypes, pureSde, allNoiseTypes, hn]
    simp [sdeint, checkSde, e]
  | heun n hn =>
    refine ⟨_, h2 rfl, ?_⟩
    have e : (sdeStrToSolver sqrt "eulerHeun" (pureSde f g (some n) (some "stratonovich")) bm : m _) =
        pure ⟨false, eulerHeunStep (pureSde f g (some n) (some "stratonovich")) bm⟩ := by
      have : (sdeStrToSolver sqrt "eulerHeun" (pureSde f g (some n) (some "stratonovich")) bm : m _) =
          mkSdeSolver sqrt .eulerHeun (pureSde f g (some n) (some "stratonovich")) bm := rfl
      rw [this]
      simp [mkSdeSolver, checkTypes, pureSde, allNoiseTypes, hn]
    simp [sdeint, checkSde, e]
  | milsteinIto noise type =>
    refine ⟨_, h3 rfl, ?_⟩
    have e : (sdeStrToSolver sqrt "milstein_ito" (pureSde f g noise type) bm : m _) =
        pure ⟨false, milsteinStep sqrt itoTerm (pureSde f g noise type) bm⟩ := rfl
    simp [sdeint, checkSde, e]
  | milsteinStratonovich noise type =>
    refine ⟨_, h4 rfl, ?_⟩
    have e : (sdeStrToSolver sqrt "milstein_stratonovich" (pureSde f g noise type) bm : m _) =
        pure ⟨false, milsteinStep sqrt stratonovichTerm (pureSde f g noise type) bm⟩ := rfl
    simp [sdeint, checkSde, e]

/-- Steps of an increasing grid are positive. -/
theorem stepsSat_pos (tSpan : List K) (h : tSpan.Pairwise (· < ·)) :
    StepsSat (fun _ dt => 0 < dt) tSpan := by
  induction tSpan with
  | nil => trivial
  | cons t rest ih =>
    cases rest with
    | nil => trivial
    | cons t' rest =>
      rw [List.pairwise_cons] at h
      exact ⟨sub_pos.2 (h.1 t' (by simp)), ih h.2⟩

theorem run_of_steps (step : V → K → K → Except PyErr (StepOut V)) (φ : V → K → K → V)
    (hstep : ∀ x t dt, 0 < dt → step x t dt = .ok (.three none (φ x t dt) none))
    (x : V) (tSpan : List K) (h2 : 2 ≤ tSpan.length) (hinc : tSpan.Pairwise (· < ·)) :
    fixedSdeint torchIsclose step x tSpan tSpan = .ok (tSpan, gridStates φ x tSpan) := by
  match tSpan, h2 with
  | t0 :: t1 :: rest, _ =>
    rw [fixedSdeint_default step (fun _ _ => pure ()) φ (fun _ dt => 0 < dt)
      (fun x t dt hd => ⟨none, none, by rw [hstep x t dt hd]; rfl⟩) x t0 t1 rest (stepsSat_pos _ hinc)]
    have : ∀ (τ : K) (l : List K), tickGrid (fun _ _ => (pure () : Except PyErr Unit)) τ l = pure () := by
      intro τ l
      induction l generalizing τ with
      | nil => rfl
      | cons s l ih => rw [tickGrid, pure_bind, ih]
    rw [this]
    rfl

/-! ### C43: no noise -/

/-- **C43.** With zero diffusion, every solver that `sdeint` accepts by name returns on every increasing
grid the trajectory of the explicit Euler method, whatever the Brownian path and the type labels. -/
theorem C43_no_noise (sqrt : K → K) (f : K → V → V) (W : K → V) {name : String}
    {noise type : Option String} (h : Accepts name noise type) (x : V) (tSpan : List K)
    (h2 : 2 ≤ tSpan.length) (hinc : tSpan.Pairwise (· < ·)) :
    sdeint (m := Except PyErr) sqrt (.sdeFunc (pureSde f (fun _ _ => 0) noise type)) x tSpan (.inl name)
      (pathBm W) [] = .ok (tSpan, gridStates (fun x t dt => x + dt • f t x) x tSpan) := by
  obtain ⟨step, hs, e⟩ := sdeint_name (m := Except PyErr) sqrt f (fun _ _ => 0) (pathBm W) h x tSpan
    (fun step => ∀ x t dt, 0 < dt → step x t dt = .ok (.three none (x + dt • f t x) none))
    (fun _ x t dt _ => by
      simp only [eulerMaruyamaStep, pureSde, pathBm, bind, Except.bind, pure, Except.pure, zero_mul,
        add_zero])
    (fun _ x t dt _ => by
      simp only [eulerHeunStep, pureSde, pathBm, bind, Except.bind, pure, Except.pure, zero_mul,
        add_zero, smul_zero])
    (fun _ x t dt _ => by
      simp only [milsteinStep, pureSde, pathBm, bind, Except.bind, pure, Except.pure, zero_mul,
        add_zero, smul_zero, sub_self])
    (fun _ x t dt _ => by
      simp only [milsteinStep, pureSde, pathBm, bind, Except.bind, pure, Except.pure, zero_mul,
        add_zero, smul_zero, sub_self])
  rw [e]
  exact run_of_steps step _ hs x tSpan h2 hinc

/-- **C43 (comparison with `odeint`).** On a grid that `odeint` accepts, this is exactly what
`odeint(..., solver='euler')` returns. -/
theorem C43_agrees_with_odeint {A : Type} (args : A) (sqrt : K → K) (f : K → V → V) (W : K → V)
    {name : String} {noise type : Option String} (h : Accepts name noise type) (x : V) (t0 t1 : K)
    (rest : List K) (hinc : (t0 :: t1 :: rest).Pairwise (· < ·)) (hsep : Separated (t0 :: t1 :: rest)) :
    sdeint (m := Except PyErr) sqrt (.sdeFunc (pureSde f (fun _ _ => 0) noise type)) x (t0 :: t1 :: rest)
      (.inl name) (pathBm W) [] =
    odeintFixed (pureField f) x (t0 :: t1 :: rest) (eulerSolver (Except PyErr) K V A) [] args := by
  rw [C43_no_noise sqrt f W h x _ (by simp) hinc]
  have hlt : t0 < t1 := by
    rw [List.pairwise_cons] at hinc
    exact hinc.1 t1 (by simp)
  rw [odeintFixed_forward x rest [] hlt.le, fixedOdeint_default _ (pure ()) (fun x t dt => x + dt • f t x)
    (fun x t dt => (euler_steppedBy f args).tick x t dt) x _ (by simp) hsep, tickN_pure]
  rfl

/-! ### C44: Brownian increments -/

theorem tickGrid_log (c : ℕ) (tick : K → K → StateT (List (K × K)) (Except PyErr) Unit)
    (htick : ∀ t dt l, (tick t dt).run l = .ok ((), l ++ List.replicate c (t, t + dt)))
    (τ : K) (rest : List K) (l : List (K × K)) :
    (tickGrid tick τ rest).run l =
      .ok ((), l ++ (intervals (τ :: rest)).flatMap (fun p => List.replicate c p)) := by
  induction rest generalizing τ l with
  | nil => simp [tickGrid, intervals]; rfl
  | cons s rest ih =>
    rw [tickGrid, StateT.run_bind, htick]
    simp only [bind, Except.bind]
    rw [ih, add_sub_cancel]
    simp [intervals]

/-- **C44 (queries).** Over an increasing grid every solver asks the Brownian motion for the consecutive
intervals of the grid, in order, and for nothing else: once each for `euler` and the Milstein schemes,
twice each for `eulerHeun`. The log starts from any earlier content. -/
theorem C44_queries (sqrt : K → K) (f g : K → V → V) (W : K → V) {name : String}
    {noise type : Option String} (h : Accepts name noise type) (x : V) (tSpan : List K)
    (h2 : 2 ≤ tSpan.length) (hinc : tSpan.Pairwise (· < ·)) (log : List (K × K)) :
    ∃ r, (sdeint sqrt (.sdeFunc (pureSde f g noise type)) x tSpan (.inl name) (loggedBm W) []).run log =
      .ok (r, log ++ (intervals tSpan).flatMap
        (fun p => List.replicate (if name = "eulerHeun" then 2 else 1) p)) := by
  obtain ⟨step, ⟨φ, hs⟩, e⟩ := sdeint_name (m := StateT (List (K × K)) (Except PyErr)) sqrt f g
    (loggedBm W) h x tSpan
    (fun step => ∃ φ : V → K → K → V, ∀ x t dt, ∃ k e, step x t dt =
      (do (if name = "eulerHeun" then do modify (· ++ [(t, t + dt)]); modify (· ++ [(t, t + dt)])
            else modify (· ++ [(t, t + dt)]) : StateT (List (K × K)) (Except PyErr) Unit)
          pure (.three k (φ x t dt) e)))
    (fun hn => by
      refine ⟨fun x t dt => x + dt • f t x + g t x * (W (t + dt) - W t), fun x t dt => ⟨none, none, ?_⟩⟩
      rw [if_neg (by rw [hn]; decide)]
      rfl)
    (fun hn => by
      refine ⟨fun x t dt => x + dt • f t x + ((1 / 2 : K) • (g t x +
        g (t + dt) (x + g t x * (W (t + dt) - W t)))) * (W (t + dt) - W t), fun x t dt => ⟨none, none, ?_⟩⟩
      rw [if_pos hn]
      rfl)
    (fun hn => by
      refine ⟨fun x t dt => x + dt • f t x + g t x * (W (t + dt) - W t) + ((1 / (2 * sqrt dt)) •
        (g t (x + dt • f t x + sqrt dt • g t x) - g t x)) * itoTerm (W (t + dt) - W t) dt,
        fun x t dt => ⟨none, none, ?_⟩⟩
      rw [if_neg (by rw [hn]; decide)]
      rfl)
    (fun hn => by
      refine ⟨fun x t dt => x + dt • f t x + g t x * (W (t + dt) - W t) + ((1 / (2 * sqrt dt)) •
        (g t (x + dt • f t x + sqrt dt • g t x) - g t x)) * stratonovichTerm (W (t + dt) - W t) dt,
        fun x t dt => ⟨none, none, ?_⟩⟩
      rw [if_neg (by rw [hn]; decide)]
      rfl)
  rw [e]
  match tSpan, h2 with
  | t0 :: t1 :: rest, _ =>
    rw [fixedSdeint_default step _ φ (fun _ dt => 0 < dt) (fun x t dt _ => hs x t dt) x t0 t1 rest
      (stepsSat_pos _ hinc), StateT.run_bind, tickGrid_log (if name = "eulerHeun" then 2 else 1)]
    · exact ⟨_, rfl⟩
    · intro t dt l
      by_cases hn : name = "eulerHeun"
      · rw [if_pos hn, if_pos hn]
        have : ((do modify (· ++ [(t, t + dt)]); modify (· ++ [(t, t + dt)]) :
          StateT (List (K × K)) (Except PyErr) Unit)).run l =
            .ok ((), (l ++ [(t, t + dt)]) ++ [(t, t + dt)]) := rfl
        rw [this, List.append_assoc]
        rfl
      · rw [if_neg hn, if_neg hn]
        rfl

/-- **C44 (telescoping).** For `dx = σ dW` with a constant `σ`, every solver returns on every increasing
grid `x₀ + σ (W(t_k) - W(t₀))` at each grid point: the result at a time does not depend on how the
interval was divided. -/
theorem C44_additive (sqrt : K → K) (σ : V) (W : K → V) {name : String} {noise type : Option String}
    (h : Accepts name noise type) (x : V) (t0 : K) (tSpan : List K) (h0 : tSpan[0]? = some t0)
    (h2 : 2 ≤ tSpan.length) (hinc : tSpan.Pairwise (· < ·)) :
    sdeint (m := Except PyErr) sqrt (.sdeFunc (pureSde (fun _ _ => 0) (fun _ _ => σ) noise type)) x tSpan
      (.inl name) (pathBm W) [] = .ok (tSpan, tSpan.map (fun t => x + σ * (W t - W t0))) := by
  have half : (1 / 2 : K) • (σ + σ) = σ := by
    rw [← two_smul K σ, smul_smul]
    norm_num
  obtain ⟨step, hs, e⟩ := sdeint_name (m := Except PyErr) sqrt (fun _ _ => 0) (fun _ _ => σ) (pathBm W) h
    x tSpan
    (fun step => ∀ x t dt, 0 < dt → step x t dt = .ok (.three none (x + σ * (W (t + dt) - W t)) none))
    (fun _ x t dt _ => by
      simp only [eulerMaruyamaStep, pureSde, pathBm, bind, Except.bind, pure, Except.pure, smul_zero,
        add_zero])
    (fun _ x t dt _ => by
      simp only [eulerHeunStep, pureSde, pathBm, bind, Except.bind, pure, Except.pure, smul_zero,
        add_zero, half])
    (fun _ x t dt _ => by
      simp only [milsteinStep, pureSde, pathBm, bind, Except.bind, pure, Except.pure, zero_mul,
        add_zero, smul_zero, sub_self])
    (fun _ x t dt _ => by
      simp only [milsteinStep, pureSde, pathBm, bind, Except.bind, pure, Except.pure, zero_mul,
        add_zero, smul_zero, sub_self])
  rw [e, run_of_steps step _ hs x tSpan h2 hinc]
  have key : ∀ (l : List K) (a : K) (y : V), y = x + σ * (W a - W t0) →
      gridStates (fun x t dt => x + σ * (W (t + dt) - W t)) y (a :: l) =
        (a :: l).map (fun t => x + σ * (W t - W t0)) := by
    intro l
    induction l with
    | nil => intro a y hy; rw [hy]; rfl
    | cons b l ih =>
      intro a y hy
      rw [gridStates, ih b _ (by rw [add_sub_cancel, hy]; ring), List.map_cons, List.map_cons, hy]
      rfl
  match tSpan, h2, h0 with
  | a :: rest, _, h0 =>
    have : a = t0 := by simpa using h0
    subst this
    rw [key rest a x (by simp)]

/-! ### C45: Ito and Stratonovich -/

section steps

variable (sqrt : K → K) (f g : K → V → V) (W : K → V) (noise type : Option String)

/-- The new state of a step of `euler` (Euler–Maruyama). -/
def emNew (x : V) (t dt : K) : V :=
  (eulerMaruyamaStep (m := Id) (pureSde f g noise type) (pathBm W) x t dt).newState

/-- The new state of a step of `eulerHeun`. -/
def ehNew (x : V) (t dt : K) : V :=
  (eulerHeunStep (m := Id) (pureSde f g noise type) (pathBm W) x t dt).newState

/-- The new state of a step of `milstein_ito`. -/
def miNew (x : V) (t dt : K) : V :=
  (milsteinStep (m := Id) sqrt itoTerm (pureSde f g noise type) (pathBm W) x t dt).newState

/-- The new state of a step of `milstein_stratonovich`. -/
def msNew (x : V) (t dt : K) : V :=
  (milsteinStep (m := Id) sqrt stratonovichTerm (pureSde f g noise type) (pathBm W) x t dt).newState

end steps

section c45

variable (sqrt : K → K) (f : K → V → V) (W : K → V) (noise type : Option String)

/-- **C45 (additive noise), first part.** For a constant diffusion all four schemes take the same step.

Missing: diffusions that depend on time, for which `eulerHeun` differs
(`C45_additive_time_partial`, `C45_additive_refuted`). -/
theorem C45_additive_partial (σ x : V) (t dt : K) (_hdt : 0 < dt) :
    emNew f (fun _ _ => σ) W noise type x t dt = x + dt • f t x + σ * (W (t + dt) - W t) ∧
    ehNew f (fun _ _ => σ) W noise type x t dt = x + dt • f t x + σ * (W (t + dt) - W t) ∧
    miNew sqrt f (fun _ _ => σ) W noise type x t dt = x + dt • f t x + σ * (W (t + dt) - W t) ∧
    msNew sqrt f (fun _ _ => σ) W noise type x t dt = x + dt • f t x + σ * (W (t + dt) - W t) := by
  have half : (1 / 2 : K) • (σ + σ) = σ := by
    rw [← two_smul K σ, smul_smul]
    norm_num
  refine ⟨rfl, ?_, ?_, ?_⟩
  · change x + dt • f t x + ((1 / 2 : K) • (σ + σ)) * (W (t + dt) - W t) = _
    rw [half]
  · change x + dt • f t x + σ * (W (t + dt) - W t) + ((1 / (2 * sqrt dt)) • (σ - σ)) * _ = _
    rw [sub_self, smul_zero, zero_mul, add_zero]
  · change x + dt • f t x + σ * (W (t + dt) - W t) + ((1 / (2 * sqrt dt)) • (σ - σ)) * _ = _
    rw [sub_self, smul_zero, zero_mul, add_zero]

/-- **C45 (additive noise), time-dependent diffusion.** `euler` and both Milstein schemes still agree;
`eulerHeun` differs from them by half the increment of the diffusion times the noise. -/
theorem C45_additive_time_partial (σ : K → V) (x : V) (t dt : K) (_hdt : 0 < dt) :
    miNew sqrt f (fun t _ => σ t) W noise type x t dt = emNew f (fun t _ => σ t) W noise type x t dt ∧
    msNew sqrt f (fun t _ => σ t) W noise type x t dt = emNew f (fun t _ => σ t) W noise type x t dt ∧
    ehNew f (fun t _ => σ t) W noise type x t dt = emNew f (fun t _ => σ t) W noise type x t dt +
      ((1 / 2 : K) • (σ (t + dt) - σ t)) * (W (t + dt) - W t) := by
  refine ⟨?_, ?_, ?_⟩
  · change x + dt • f t x + σ t * (W (t + dt) - W t) + ((1 / (2 * sqrt dt)) • (σ t - σ t)) * _ =
      x + dt • f t x + σ t * (W (t + dt) - W t)
    rw [sub_self, smul_zero, zero_mul, add_zero]
  · change x + dt • f t x + σ t * (W (t + dt) - W t) + ((1 / (2 * sqrt dt)) • (σ t - σ t)) * _ =
      x + dt • f t x + σ t * (W (t + dt) - W t)
    rw [sub_self, smul_zero, zero_mul, add_zero]
  · change x + dt • f t x + ((1 / 2 : K) • (σ t + σ (t + dt))) * (W (t + dt) - W t) =
      x + dt • f t x + σ t * (W (t + dt) - W t) + _
    have h2 : (1 / 2 : K) • (σ t + σ (t + dt)) = σ t + (1 / 2 : K) • (σ (t + dt) - σ t) := by
      module
    rw [h2]
    ring

/-- **C45 (linear noise).** For the diffusion `σ x` (elementwise) and any drift, the Milstein schemes give
the second-order expansions plus a drift term of order `dt^(1/2)` times the last factor, which comes from
the derivative-free approximation.

Missing: the exact expansions for a nonzero drift (`C45_linear_refuted`). For zero drift see
`C45_linear_no_drift_partial`. -/
theorem C45_linear_partial (hsq : IsSqrt sqrt) (σ x : V) (t dt : K) (hdt : 0 < dt) :
    miNew sqrt f (fun _ x => σ * x) W noise type x t dt =
      x + dt • f t x + σ * x * (W (t + dt) - W t) +
        (1 / 2 : K) • (σ ^ 2 * x * ((W (t + dt) - W t) ^ 2 - algebraMap K V dt)) +
        (sqrt dt / 2) • (σ * f t x * ((W (t + dt) - W t) ^ 2 - algebraMap K V dt)) ∧
    msNew sqrt f (fun _ x => σ * x) W noise type x t dt =
      x + dt • f t x + σ * x * (W (t + dt) - W t) +
        (1 / 2 : K) • (σ ^ 2 * x * (W (t + dt) - W t) ^ 2) +
        (sqrt dt / 2) • (σ * f t x * (W (t + dt) - W t) ^ 2) := by
  obtain ⟨hpos, hsq'⟩ := hsq dt hdt
  have main : ∀ v : V, ((1 / (2 * sqrt dt)) • (σ * (x + dt • f t x + sqrt dt • (σ * x)) - σ * x)) * v =
      (1 / 2 : K) • (σ ^ 2 * x * v) + (sqrt dt / 2) • (σ * f t x * v) := by
    intro v
    have e1 : σ * (x + dt • f t x + sqrt dt • (σ * x)) - σ * x =
        dt • (σ * f t x) + sqrt dt • (σ ^ 2 * x) := by
      simp only [Algebra.smul_def]
      ring
    have c1 : 1 / (2 * sqrt dt) * dt = sqrt dt / 2 := by
      rw [div_mul_eq_mul_div, one_mul, div_eq_div_iff (by positivity) (by norm_num)]
      linear_combination (-2) * hsq'
    have c2 : 1 / (2 * sqrt dt) * sqrt dt = 1 / 2 := by
      field_simp
    rw [e1, smul_add, smul_smul, smul_smul, c1, c2, add_mul, smul_mul_assoc, smul_mul_assoc, add_comm]
  constructor
  · change x + dt • f t x + σ * x * (W (t + dt) - W t) +
      ((1 / (2 * sqrt dt)) • (σ * (x + dt • f t x + sqrt dt • (σ * x)) - σ * x)) *
        ((W (t + dt) - W t) ^ 2 - algebraMap K V dt) = _
    rw [main, add_assoc (x + dt • f t x + σ * x * (W (t + dt) - W t))]
  · change x + dt • f t x + σ * x * (W (t + dt) - W t) +
      ((1 / (2 * sqrt dt)) • (σ * (x + dt • f t x + sqrt dt • (σ * x)) - σ * x)) *
        ((W (t + dt) - W t) ^ 2) = _
    rw [main, add_assoc (x + dt • f t x + σ * x * (W (t + dt) - W t))]

/-- **C45 (geometric Brownian motion without drift).** For `dx = σ x dW` the Milstein schemes give exactly
`x + σ x ΔW + σ² x (ΔW² - dt)/2` (Ito) and `x + σ x ΔW + σ² x ΔW²/2` (Stratonovich), which differ by
`σ² x dt/2`, and `eulerHeun` gives the Stratonovich one. -/
theorem C45_linear_no_drift_partial (hsq : IsSqrt sqrt) (σ x : V) (t dt : K) (hdt : 0 < dt) :
    miNew sqrt (fun _ _ => 0) (fun _ x => σ * x) W noise type x t dt =
      x + σ * x * (W (t + dt) - W t) +
        (1 / 2 : K) • (σ ^ 2 * x * ((W (t + dt) - W t) ^ 2 - algebraMap K V dt)) ∧
    msNew sqrt (fun _ _ => 0) (fun _ x => σ * x) W noise type x t dt =
      x + σ * x * (W (t + dt) - W t) + (1 / 2 : K) • (σ ^ 2 * x * (W (t + dt) - W t) ^ 2) ∧
    msNew sqrt (fun _ _ => 0) (fun _ x => σ * x) W noise type x t dt -
      miNew sqrt (fun _ _ => 0) (fun _ x => σ * x) W noise type x t dt = (dt / 2) • (σ ^ 2 * x) ∧
    ehNew (fun _ _ => 0) (fun _ x => σ * x) W noise type x t dt =
      msNew sqrt (fun _ _ => 0) (fun _ x => σ * x) W noise type x t dt := by
  obtain ⟨h1, h2⟩ := C45_linear_partial sqrt (fun _ _ => 0) W noise type hsq σ x t dt hdt
  simp only [smul_zero, add_zero, mul_zero, zero_mul] at h1 h2
  refine ⟨h1, h2, ?_, ?_⟩
  · rw [h1, h2]
    have : (dt / 2) • (σ ^ 2 * x) = (1 / 2 : K) • (algebraMap K V dt * (σ ^ 2 * x)) := by
      rw [← Algebra.smul_def, smul_smul]
      congr 1
      ring
    rw [this]
    simp only [Algebra.smul_def]
    ring
  · rw [h2]
    change x + dt • (0 : V) + ((1 / 2 : K) • (σ * x + σ * (x + σ * x * (W (t + dt) - W t)))) *
      (W (t + dt) - W t) = _
    have h3 : (algebraMap K V (1 / 2)) * 2 = 1 := by
      rw [← map_ofNat (algebraMap K V) 2, ← map_mul]
      norm_num
    simp only [Algebra.smul_def, mul_zero]
    linear_combination (x * σ * (W (t + dt) - W t)) * h3

end c45

/-- **C45 (refutation, additive noise).** For the state-independent diffusion `g(t, x) = t`, zero drift and
a path with a unit increment, `euler` and `eulerHeun` take different steps from time `0`. -/
theorem C45_additive_refuted :
    emNew (K := ℚ) (V := ℚ) (fun _ _ => 0) (fun t _ => t) (fun t => t) none none 0 0 1 = 0 ∧
    ehNew (K := ℚ) (V := ℚ) (fun _ _ => 0) (fun t _ => t) (fun t => t) none none 0 0 1 = 1 / 2 := by
  decide +kernel

/-- **C45 (refutation, linear noise).** For `dx = dt + x dW` from `x = 0` with `ΔW = dt = 1`, the
Stratonovich Milstein step of the code gives `3/2`, the exact expansion without the drift term `1`. -/
theorem C45_linear_refuted :
    msNew (K := ℝ) (V := ℝ) Real.sqrt (fun _ _ => 1) (fun _ x => x) (fun t => t) none none 0 0 1 = 3 / 2 := by
  have h := (C45_linear_partial (K := ℝ) (V := ℝ) Real.sqrt (fun _ _ => 1) (fun t => t) none none
    isSqrt_real 1 0 0 1 one_pos).2
  simp only [one_mul] at h
  rw [h]
  norm_num

/-! ### C46: type checks -/

/-- **C46 (what is checked).** `euler` and `eulerHeun` raise `ValueError` for every SDE whose labels do not
match: for any state, grid, path and save points.

Missing: the Milstein schemes never check (`C46_milstein_refuted`). -/
theorem C46_checked_partial (sqrt : K → K) (f g : K → V → V) (noise type : Option String)
    (bm : K → K → Except PyErr V) (x : V) (tSpan saveAt : List K) (name : String)
    (hname : name = "euler" ∨ name = "eulerHeun") (h : ¬ Accepts name noise type) :
    sdeint sqrt (.sdeFunc (pureSde f g noise type)) x tSpan (.inl name) bm saveAt =
      .error .valueError := by
  have key : ∀ s : String, (∀ n, n ∈ allNoiseTypes → ¬ (noise = some n ∧ type = some s)) →
      checkTypes (m := Except PyErr) (pureSde f g noise type) s allNoiseTypes = .error .valueError := by
    intro s hs
    by_cases ht : type = some s
    · cases noise with
      | none => simp [checkTypes, pureSde, ht]; rfl
      | some n =>
        have : n ∉ allNoiseTypes := fun hn => hs n hn ⟨rfl, ht⟩
        simp [checkTypes, pureSde, ht, this]
        rfl
    · simp [checkTypes, pureSde, ht]
      rfl
  rcases hname with rfl | rfl
  · have k := key "ito" (fun n hn hh => h (by rw [hh.1, hh.2]; exact .euler n hn))
    have e : sdeStrToSolver (m := Except PyErr) sqrt "euler" (pureSde f g noise type) bm =
        mkSdeSolver sqrt .eulerMaruyama (pureSde f g noise type) bm := rfl
    simp only [sdeint, checkSde, e, mkSdeSolver, k, bind, Except.bind, pure, Except.pure]
  · have k := key "stratonovich" (fun n hn hh => h (by rw [hh.1, hh.2]; exact .heun n hn))
    have e : sdeStrToSolver (m := Except PyErr) sqrt "eulerHeun" (pureSde f g noise type) bm =
        mkSdeSolver sqrt .eulerHeun (pureSde f g noise type) bm := rfl
    simp only [sdeint, checkSde, e, mkSdeSolver, k, bind, Except.bind, pure, Except.pure]

/-- **C46 (matching labels are accepted).** With matching labels `euler` and `eulerHeun` never raise, for
every increasing grid. -/
theorem C46_matching_accepted (sqrt : K → K) (f g : K → V → V) (W : K → V) {name : String}
    {noise type : Option String} (h : Accepts name noise type) (x : V) (tSpan : List K)
    (h2 : 2 ≤ tSpan.length) (hinc : tSpan.Pairwise (· < ·)) :
    ∃ sol, sdeint (m := Except PyErr) sqrt (.sdeFunc (pureSde f g noise type)) x tSpan (.inl name)
      (pathBm W) [] = .ok (tSpan, sol) ∧ sol.length = tSpan.length := by
  obtain ⟨step, ⟨φ, hs⟩, e⟩ := sdeint_name (m := Except PyErr) sqrt f g (pathBm W) h x tSpan
    (fun step => ∃ φ : V → K → K → V, ∀ x t dt, 0 < dt → step x t dt = .ok (.three none (φ x t dt) none))
    (fun _ => ⟨fun x t dt => emNew f g W noise type x t dt, fun x t dt _ => rfl⟩)
    (fun _ => ⟨fun x t dt => ehNew f g W noise type x t dt, fun x t dt _ => rfl⟩)
    (fun _ => ⟨fun x t dt => miNew sqrt f g W noise type x t dt, fun x t dt _ => rfl⟩)
    (fun _ => ⟨fun x t dt => msNew sqrt f g W noise type x t dt, fun x t dt _ => rfl⟩)
  rw [e, run_of_steps step φ hs x tSpan h2 hinc]
  exact ⟨_, rfl, gridStates_length _ _ _⟩

/-- **C46 (refutation).** `milstein_ito` integrates an SDE labelled Stratonovich, with an unknown noise
type, without complaint. -/
theorem C46_milstein_refuted (f g : ℝ → ℝ → ℝ) (W : ℝ → ℝ) (x : ℝ) :
    ∃ sol, sdeint (m := Except PyErr) Real.sqrt
      (.sdeFunc (pureSde f g (some "no such noise") (some "stratonovich"))) x [0, 1, 2]
      (.inl "milstein_ito") (pathBm W) [] = .ok ([0, 1, 2], sol) ∧ sol.length = 3 :=
  C46_matching_accepted Real.sqrt f g W (.milsteinIto _ _) x [0, 1, 2] (by simp) (by norm_num)

/-- **C46 (adaptive solver objects).** A solver object that declares itself adaptive is rejected with `NotImplementedError` before
any step, for every SDE that passes the check of its attributes. -/
theorem C46_adaptive (sqrt : K → K) (s : SdeFunc (Except PyErr) K V) (bm : K → K → Except PyErr V) (x : V)
    (tSpan saveAt : List K) (step : V → K → K → Except PyErr (StepOut V)) :
    sdeint sqrt (.sdeFunc s) x tSpan (.inr ⟨true, step⟩) bm saveAt = .error .notImplementedError := rfl

/-- **C46 (names).** `midpoint` is listed but can never be used, every unlisted name raises `KeyError`, and
an object lacking one of the attributes `f`, `g`, `noise_type`, `sde_type` is rejected with
`RuntimeError`, whatever the other arguments. -/
theorem C46_names (sqrt : K → K) (s : SdeFunc (Except PyErr) K V) (bm : K → K → Except PyErr V) (x : V)
    (tSpan saveAt : List K) :
    sdeint sqrt (.sdeFunc s) x tSpan (.inl "midpoint") bm saveAt = .error .typeError ∧
    (∀ name, name ∉ ["euler", "eulerHeun", "midpoint", "milstein_ito", "milstein_stratonovich"] →
      sdeint sqrt (.sdeFunc s) x tSpan (.inl name) bm saveAt = .error .keyError) ∧
    (∀ solver f g noise type, f = none ∨ g = none ∨ noise = none ∨ type = none →
      sdeint sqrt (.object f g noise type) x tSpan solver bm saveAt = .error .runtimeError) := by
  refine ⟨rfl, ?_, ?_⟩
  · intro name hn
    have e : sdeStrToSolver sqrt name s bm = .error .keyError := by
      simp only [List.mem_cons, List.not_mem_nil, or_false, not_or] at hn
      obtain ⟨a1, a2, a3, a4, a5⟩ := hn
      have : sdeSolverDict.find? (fun p => p.1 == name) = none := by
        rw [List.find?_eq_none]
        intro p hp
        simp only [sdeSolverDict, List.mem_cons, List.not_mem_nil, or_false] at hp
        rcases hp with rfl | rfl | rfl | rfl | rfl <;> simp <;> exact fun hh => by simp_all
      rw [sdeStrToSolver, this]
      rfl
    simp only [sdeint, checkSde, e, bind, Except.bind, pure, Except.pure]
  · intro solver f g noise type h
    have e : checkSde (m := Except PyErr) (.object f g noise type) = .error .runtimeError := by
      cases f <;> cases g <;> cases noise <;> cases type <;> simp at h <;> rfl
    simp only [sdeint, e, bind, Except.bind]

/-! ### Non-vacuity -/

/-- A mismatch: an SDE labelled Stratonovich given to `euler`. -/
example : ¬ Accepts "euler" (some "diagonal") (some "stratonovich") := by
  intro h
  generalize hs : "euler" = s at h
  generalize ht : some "stratonovich" = t at h
  cases h with
  | euler n h => simp at ht
  | heun n h => simp at hs
  | milsteinIto => simp at hs
  | milsteinStratonovich => simp at hs

/-- The hypotheses of `C43_no_noise` and `C44_additive` for a concrete grid and `eulerHeun`. -/
example (W : ℝ → ℝ) :
    sdeint (m := Except PyErr) Real.sqrt
      (.sdeFunc (pureSde (fun _ _ => 0) (fun _ _ => 2) (some "diagonal") (some "stratonovich"))) 1
      [0, 1 / 2, 2] (.inl "eulerHeun") (pathBm W) [] =
    .ok ([0, 1 / 2, 2], [0, 1 / 2, 2].map (fun t => 1 + 2 * (W t - W 0))) :=
  C44_additive Real.sqrt 2 W (.heun "diagonal" (by simp)) 1 0 _ rfl (by simp) (by norm_num)

end Torchdyn
