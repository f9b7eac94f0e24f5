import Verif.Props.Interpolation
import Verif.Props.Structure
import Mathlib.Tactic.Positivity

/-!
Property C72: seminorms.
-/

set_option linter.unusedSectionVars false
set_option linter.unusedSimpArgs false

namespace Torchdyn

open Spec

/-! ### Runs related by a map of the states -/

section map

variable {K V W : Type} [Field K] [LinearOrder K]

/-- Apply a map to every tensor of the loop state. -/
def AState.map (φ : V → W) (s : AState K V) : AState K W :=
  { t := s.t, dt := s.dt, x := φ s.x, k1 := φ s.k1, ckpt := s.ckpt, ckptFlag := s.ckptFlag,
    dtOld := s.dtOld, evalTimes := s.evalTimes, sol := s.sol.map φ }

theorem interpCkpts_map (φ : V → W) (d : K → V) (d' : K → W) (h : ∀ t, d' t = φ (d t)) (tNew : K)
    (rest : List K) (c : ℕ) (et : List K) (sol : List V) :
    interpCkpts d' tNew rest c et (sol.map φ) =
      ((interpCkpts d tNew rest c et sol).1, (interpCkpts d tNew rest c et sol).2.1,
        (interpCkpts d tNew rest c et sol).2.2.map φ) := by
  induction rest generalizing c et sol with
  | nil => rfl
  | cons te rest ih =>
    simp only [interpCkpts]
    split_ifs
    · rw [← ih]; simp [h]
    · rfl

/-- Two configurations of the adaptive loop related by a map of the states. -/
structure CfgMap (φ : V → W) (cfg : AdaptiveCfg (Except PyErr) K V)
    (cfg' : AdaptiveCfg (Except PyErr) K W) : Prop where
  step : ∀ x t dt k, cfg'.step (φ x) t dt (φ k) = (cfg.step x t dt k).map (StepOut.map φ)
  err : ∀ x x' e, cfg'.errRatio (φ x) (φ x') (φ e) = cfg.errRatio x x' e
  adapt : cfg'.adapt = cfg.adapt
  all : cfg'.returnAllEval = cfg.returnAllEval
  interp : (cfg.interp = none ∧ cfg'.interp = none) ∨ ∃ d d', cfg.interp = some d ∧
    cfg'.interp = some d' ∧ ∀ t dt k k' x x' st tq,
      d' t dt (φ k) (φ k') (φ x) (φ x') (st.map φ) tq = φ (d t dt k k' x x' st tq)

variable {φ : V → W} {cfg : AdaptiveCfg (Except PyErr) K V} {cfg' : AdaptiveCfg (Except PyErr) K W}

theorem CfgMap.accept (h : CfgMap φ cfg cfg') (tEval : List K) (s : AState K V) (dt : K) (k x : V)
    (st : List V) :
    acceptStep cfg' tEval (s.map φ) dt (φ k) (φ x) (st.map φ) =
      (acceptStep cfg tEval s dt k x st).map (AState.map φ) := by
  have e : interpPhase cfg' tEval (s.map φ) dt (φ k) (φ x) (st.map φ) =
      ((interpPhase cfg tEval s dt k x st).1, (interpPhase cfg tEval s dt k x st).2.1,
        (interpPhase cfg tEval s dt k x st).2.2.map φ) := by
    rcases h.interp with ⟨h1, h2⟩ | ⟨d, d', h1, h2, h3⟩
    · simp only [interpPhase, h1, h2]; rfl
    · simp only [interpPhase, h1, h2]
      exact interpCkpts_map φ _ _ (fun tq => h3 _ _ _ _ _ _ _ _) _ _ _ _ _
  simp only [acceptStep, e, h.all]
  cases (getItem tEval (interpPhase cfg tEval s dt k x st).1 : Except PyErr K) with
  | error e => rfl
  | ok te =>
    simp only [bind, Except.bind, pure, Except.pure, Except.map, AState.map]
    by_cases h1 : s.t + dt = te <;> by_cases h2 : cfg.returnAllEval = true <;> simp [h1, h2]

theorem CfgMap.iter (h : CfgMap φ cfg cfg') (tEval : List K) (T : K) (s : AState K V) :
    adaptiveIter cfg' tEval T (s.map φ) = (adaptiveIter cfg tEval T s).map (AState.map φ) := by
  have hi : cfg'.interp.isSome = cfg.interp.isSome := by
    rcases h.interp with ⟨h1, h2⟩ | ⟨d, d', h1, h2, _⟩ <;> rw [h1, h2] <;> rfl
  have hc : checkpointDt cfg'.interp.isSome tEval (s.map φ) (clampDt T (s.map φ)) =
      checkpointDt cfg.interp.isSome tEval s (clampDt T s) := by rw [hi]; rfl
  have hst : ∀ d, cfg'.step (s.map φ).x (s.map φ).t d (s.map φ).k1 =
      (cfg.step s.x s.t d s.k1).map (StepOut.map φ) := fun d => h.step _ _ _ _
  simp only [adaptiveIter, hc, hst, h.adapt]
  cases cfg.step s.x s.t (checkpointDt cfg.interp.isSome tEval s (clampDt T s)).1 s.k1 with
  | error e => rfl
  | ok o =>
    cases o with
    | three => rfl
    | four k x e st =>
      simp only [Except.map, bind, Except.bind, StepOut.map, StepOut.unpack4, pure, Except.pure]
      have he : cfg'.errRatio (s.map φ).x (φ x) (φ e) = cfg.errRatio s.x x e := h.err _ _ _
      rw [he]
      by_cases hacc : cfg.errRatio s.x x e ≤ 1
      · rw [if_pos hacc, if_pos hacc, h.accept]
        cases acceptStep cfg tEval s (checkpointDt cfg.interp.isSome tEval s (clampDt T s)).1 k x st <;>
          rfl
      · rw [if_neg hacc, if_neg hacc]
        rfl

theorem CfgMap.loop (h : CfgMap φ cfg cfg') (tEval : List K) (T : K) (fuel : ℕ) : ∀ s : AState K V,
    adaptiveLoop cfg' tEval T fuel (s.map φ) =
      (adaptiveLoop cfg tEval T fuel s).map (Option.map (AState.map φ)) := by
  induction fuel with
  | zero => intro s; rfl
  | succ fuel ih =>
    intro s
    simp only [adaptiveLoop]
    have : (s.map φ).t = s.t := rfl
    rw [this]
    split_ifs
    · rw [h.iter]
      cases adaptiveIter cfg tEval T s with
      | error e => rfl
      | ok s' => exact ih s'
    · rfl

theorem CfgMap.odeint (h : CfgMap φ cfg cfg') (fuel : ℕ) (k x : V) (dt : K) (ts : List K) :
    adaptiveOdeint cfg' fuel (φ k) (φ x) dt ts =
      (adaptiveOdeint cfg fuel k x dt ts).map (Option.map (fun r => (r.1, r.2.map φ))) := by
  simp only [adaptiveOdeint]
  cases (getItem ts 0 : Except PyErr K) with
  | error e => rfl
  | ok t0 =>
    cases (getItem ts (ts.length - 1) : Except PyErr K) with
    | error e => rfl
    | ok T =>
      simp only [bind, Except.bind]
      have := h.loop (ts.drop 1) T fuel (adaptiveInit k x dt t0)
      have e : (adaptiveInit k x dt t0).map φ = adaptiveInit (φ k) (φ x) dt t0 := rfl
      rw [e] at this
      rw [this]
      cases adaptiveLoop cfg (ts.drop 1) T fuel (adaptiveInit k x dt t0) with
      | error e => rfl
      | ok r => cases r <;> rfl

end map

variable {ι A : Type} [Fintype ι]

/-- Keep the entries in `sel`. -/
def restrict (sel : Finset ι) : (ι → ℝ) →ₗ[ℝ] ({i // i ∈ sel} → ℝ) :=
  LinearMap.funLeft ℝ ℝ Subtype.val

theorem errorRatio_restrict (sel : Finset ι) (atol rtol : ℝ) (x x' e : ι → ℝ) :
    errorRatio Finset.univ atol rtol (restrict sel x) (restrict sel x') (restrict sel e) =
      errorRatio sel atol rtol x x' e := by
  unfold errorRatio hairerNormOn
  rw [Finset.card_univ, Fintype.card_coe]
  congr 2
  rw [← Finset.sum_coe_sort sel]
  rfl

theorem dense_map {V W : Type} [AddCommGroup V] [Module ℝ V] [AddCommGroup W] [Module ℝ W]
    (φ : V →ₗ[ℝ] W) (b : List ℝ) (t dt : ℝ) (k k' x x' : V) (st : List V) (tq : ℝ) :
    fourthOrderDense b t dt (φ k) (φ k') (φ x) (φ x') (st.map φ) tq =
      φ (fourthOrderDense b t dt k k' x x' st tq) := by
  have hm : interpMid b (φ x) dt (st.map φ) = φ (interpMid b x dt st) := by
    simp only [interpMid, List.length_map, map_add, map_smul, map_list_sum, List.map_map]
    congr 3
    refine List.map_congr_left (fun i hi => ?_)
    rw [List.mem_range] at hi
    simp only [Function.comp, map_smul]
    congr 1
    rw [List.getD_eq_getElem?_getD, List.getD_eq_getElem?_getD, List.getElem?_map,
      List.getElem?_eq_getElem hi]
    rfl
  simp only [fourthOrderDense, hm, interp_expand, map_add, map_sub, map_smul]

/-- The adaptive solvers of the library: `dopri5` or `tsit5`, on tensors of any shape. -/
noncomputable def libSolver (tsit : Bool) (ι A : Type) : Solver (Except PyErr) ℝ (ι → ℝ) A :=
  if tsit then tsit5Solver (Except PyErr) ℝ (ι → ℝ) A else dopri5Solver (Except PyErr) ℝ (ι → ℝ) A

theorem libSolver_step (tsit : Bool) {κ : Type} (φ : (ι → ℝ) →ₗ[ℝ] (κ → ℝ))
    (f : ℝ → (ι → ℝ) → (ι → ℝ)) (F : ℝ → (κ → ℝ) → (κ → ℝ))
    (h : ∀ t x, φ (f t x) = F t (φ x)) (x : ι → ℝ) (t dt : ℝ) (k : ι → ℝ) (args : A) :
    (libSolver tsit κ A).step (pureField F) (φ x) t dt (some (φ k)) args =
      ((libSolver tsit ι A).step (pureField f) x t dt (some k) args).map (StepOut.map φ) := by
  have := C08_adaptive_step_equivariant φ f F h x t dt (some k) args
  cases tsit with
  | true => exact congrArg Except.ok this.2.symm
  | false => exact congrArg Except.ok this.1.symm

/-- **C72 (partial: given the initial step size).** Let the entries in `sel` (those kept by the
seminorm) form a closed subsystem `F` of the field `f`. Then the adaptive loop run on the full state
with the seminorm takes exactly the decisions of the loop run on the subsystem alone with the full
norm: same accepted times, same number of iterations, and the kept entries of the returned states are
the states returned for the subsystem — whatever the other entries, their dynamics and their errors.

Missing: `odeint` computes the initial step size `dt` with the full norm, so `dt` itself is not a
function of the kept entries (`C72_initial_step_refuted`). -/
theorem C72_seminorm_partial (tsit : Bool) (sel : Finset ι) (f : ℝ → (ι → ℝ) → (ι → ℝ))
    (F : ℝ → ({i // i ∈ sel} → ℝ) → ({i // i ∈ sel} → ℝ))
    (h : ∀ t x, restrict sel (f t x) = F t (restrict sel x)) (args : A) (atol rtol : ℝ)
    (ui rae : Bool) (fuel : ℕ) (k x : ι → ℝ) (dt : ℝ) (ts : List ℝ) :
    adaptiveOdeint (odeintCfg (pureField F) (libSolver tsit {i // i ∈ sel} A) args atol rtol
        Finset.univ (if ui then some (fourthOrderDense (construct4th ℝ)) else none) rae) fuel
        (restrict sel k) (restrict sel x) dt ts =
      (adaptiveOdeint (odeintCfg (pureField f) (libSolver tsit ι A) args atol rtol sel
        (if ui then some (fourthOrderDense (construct4th ℝ)) else none) rae) fuel k x dt ts).map
        (Option.map (fun r => (r.1, r.2.map (restrict sel)))) := by
  refine CfgMap.odeint (φ := restrict sel) ⟨?_, ?_, ?_, rfl, ?_⟩ fuel k x dt ts
  · exact fun x t dt k => libSolver_step tsit (restrict sel) f F h x t dt k args
  · exact fun x x' e => errorRatio_restrict sel atol rtol x x' e
  · funext dt er
    cases tsit <;> rfl
  · cases ui with
    | false => exact Or.inl ⟨rfl, rfl⟩
    | true => exact Or.inr ⟨_, _, rfl, rfl, fun t dt k k' x x' st tq => dense_map _ _ _ _ _ _ _ _ _ _⟩

/-- **C72.** The error ratio ignores the excluded entries of states and error. -/
theorem C72_error_ratio (sel : Finset ι) (atol rtol : ℝ) (x y x' y' e e' : ι → ℝ)
    (hx : ∀ i ∈ sel, x i = y i) (hx' : ∀ i ∈ sel, x' i = y' i) (he : ∀ i ∈ sel, e i = e' i) :
    errorRatio sel atol rtol x x' e = errorRatio sel atol rtol y y' e' := by
  rw [← errorRatio_restrict sel, ← errorRatio_restrict sel atol rtol y]
  have g : ∀ u v : ι → ℝ, (∀ i ∈ sel, u i = v i) → restrict sel u = restrict sel v := by
    intro u v h
    funext i
    exact h i i.2
  rw [g x y hx, g x' y' hx', g e e' he]

/-- The first `d` entries of a state with `n` entries. -/
def firstEntries {n d : ℕ} (h : d ≤ n) : (Fin n → ℝ) →ₗ[ℝ] (Fin d → ℝ) :=
  LinearMap.funLeft ℝ ℝ (Fin.castLE h)

theorem errorRatio_firstEntries {n d : ℕ} (h : d ≤ n) (atol rtol : ℝ) (x x' e : Fin n → ℝ) :
    errorRatio Finset.univ atol rtol (firstEntries h x) (firstEntries h x') (firstEntries h e) =
      errorRatio (seminormSel (true, d)) atol rtol x x' e := by
  have hs : (seminormSel (true, d) : Finset (Fin n)) = Finset.univ.map (Fin.castLEEmb h) := by
    ext i
    simp only [seminormSel, if_true, Finset.mem_filter, Finset.mem_univ, true_and, Finset.mem_map,
      Fin.castLEEmb_apply]
    exact ⟨fun hi => ⟨⟨i.val, hi⟩, rfl⟩, fun ⟨j, hj⟩ => by rw [← hj]; exact j.2⟩
  unfold errorRatio hairerNormOn
  rw [hs, Finset.card_map, Finset.sum_map]
  rfl

/-- **C72 for `seminorm=(True, d)`** (partial: given the initial step size). The first `d` entries of the
state form a closed subsystem `F` of the field `f`. The loop on the full state takes exactly the decisions
of the loop run on the first `d` entries alone, and returns the same values for them. -/
theorem C72_prefix_partial (tsit : Bool) {n d : ℕ} (hd : d ≤ n) (f : ℝ → (Fin n → ℝ) → (Fin n → ℝ))
    (F : ℝ → (Fin d → ℝ) → (Fin d → ℝ))
    (h : ∀ t x, firstEntries hd (f t x) = F t (firstEntries hd x)) (args : A) (atol rtol : ℝ)
    (ui rae : Bool) (fuel : ℕ) (k x : Fin n → ℝ) (dt : ℝ) (ts : List ℝ) :
    adaptiveOdeint (odeintCfg (pureField F) (libSolver tsit (Fin d) A) args atol rtol
        Finset.univ (if ui then some (fourthOrderDense (construct4th ℝ)) else none) rae) fuel
        (firstEntries hd k) (firstEntries hd x) dt ts =
      (adaptiveOdeint (odeintCfg (pureField f) (libSolver tsit (Fin n) A) args atol rtol
        (seminormSel (true, d))
        (if ui then some (fourthOrderDense (construct4th ℝ)) else none) rae) fuel k x dt ts).map
        (Option.map (fun r => (r.1, r.2.map (firstEntries hd)))) := by
  refine CfgMap.odeint (φ := firstEntries hd) ⟨?_, ?_, ?_, rfl, ?_⟩ fuel k x dt ts
  · exact fun x t dt k => libSolver_step tsit (firstEntries hd) f F h x t dt k args
  · exact fun x x' e => errorRatio_firstEntries hd atol rtol x x' e
  · funext dt er
    cases tsit <;> rfl
  · cases ui with
    | false => exact Or.inl ⟨rfl, rfl⟩
    | true => exact Or.inr ⟨_, _, rfl, rfl, fun t dt k k' x x' st tq => dense_map _ _ _ _ _ _ _ _ _ _⟩

/-- **C72.** With `seminorm=(False, _)` every entry counts: the ratio is zero only if every entry of the
error is (`atol > 0`); with `(True, d)`, exactly if the first `d` entries are. -/
theorem C72_flag {n d : ℕ} (flag : Bool) (atol rtol : ℝ) (ha : 0 < atol) (hr : 0 ≤ rtol)
    (x x' e : Fin n → ℝ) :
    errorRatio (seminormSel (flag, d)) atol rtol x x' e = 0 ↔
      ∀ i : Fin n, (flag = true → i.val < d) → e i = 0 := by
  have hden : ∀ i, 0 < atol + rtol * max |x i| |x' i| := fun i =>
    add_pos_of_pos_of_nonneg ha (mul_nonneg hr (le_max_of_le_left (abs_nonneg _)))
  have hsel : ∀ i : Fin n, i ∈ (seminormSel (flag, d) : Finset (Fin n)) ↔ (flag = true → i.val < d) := by
    intro i
    cases flag <;> simp [seminormSel]
  unfold errorRatio hairerNormOn
  rw [Real.sqrt_eq_zero (by positivity), div_eq_zero_iff]
  constructor
  · rintro (h0 | h0) i hi
    · rw [Finset.sum_eq_zero_iff_of_nonneg (fun _ _ => by positivity)] at h0
      have := h0 i ((hsel i).2 hi)
      rw [sq_eq_zero_iff, abs_eq_zero, errorScaled, div_eq_zero_iff] at this
      exact this.resolve_right (hden i).ne'
    · have : (seminormSel (flag, d) : Finset (Fin n)) = ∅ := Finset.card_eq_zero.1 (by exact_mod_cast h0)
      have hm := (hsel i).2 hi
      rw [this] at hm
      exact absurd hm (Finset.notMem_empty _)
  · intro h
    left
    refine Finset.sum_eq_zero (fun i hi => ?_)
    rw [errorScaled, h i ((hsel i).1 hi)]
    simp

/-- Non-vacuity of `C72_prefix_partial`: the first entry follows `y' = -y`, the second one is driven. -/
example : ∀ (t : ℝ) (x : Fin 2 → ℝ), firstEntries (by norm_num : 1 ≤ 2) (![-x 0, x 0 + x 1 ^ 2]) =
    (fun (_ : ℝ) (y : Fin 1 → ℝ) => -y) t (firstEntries (by norm_num : 1 ≤ 2) x) := by
  intro t x
  funext i
  fin_cases i
  rfl

/-- Non-vacuity of C72: the kept entry follows `y' = -y`, the excluded one integrates `y` with a
feedback on itself. -/
example : ∀ (t : ℝ) (x : Fin 2 → ℝ), restrict {0} (![-x 0, x 0 + x 1 ^ 2]) =
    (fun (_ : ℝ) (y : {i : Fin 2 // i ∈ ({0} : Finset (Fin 2))} → ℝ) => -y) t (restrict {0} x) := by
  intro t x
  funext i
  obtain ⟨i, hi⟩ := i
  rw [Finset.mem_singleton] at hi
  subst hi
  rfl

/-! ### Refutation: the initial step size uses the full norm -/

/-- A constant field on two entries. -/
def constField (c : ℝ) : ℝ → (Fin 2 → ℝ) → (Fin 2 → ℝ) := fun _ _ => ![0, c]

theorem constField_initStep (c dt : ℝ) (hc : c = 0 ∧ dt = 1 / 10 ^ 6 ∨ c = 1 / 10 ^ 5 ∧ dt = 1 / 10 ^ 4) :
    initStep (m := Except PyErr) (pureField (constField c)) (constField c 0 (fun _ => 0)) (fun _ => 0) 0 5
      (1 / 1000) (1 / 1000) = .ok dt := by
  have hz : hairerNorm (fun _ : Fin 2 => (0 : ℝ)) = 0 := by simp [hairerNorm, hairerNormOn]
  have hd1 : hairerNorm (fun i : Fin 2 => constField c 0 (fun _ => 0) i / (1 / 1000 + |(0 : ℝ)| * (1 / 1000)))
      = Real.sqrt ((1000 * c) ^ 2 / 2) := by
    simp only [hairerNorm, hairerNormOn, Fin.sum_univ_two, constField, Finset.card_univ, Fintype.card_fin,
      sq_abs, abs_zero, zero_mul, add_zero]
    congr 1
    simp
    ring
  simp only [initStep, pureField, bind, Except.bind, pure, Except.pure, zero_div]
  have hdiff : (fun i : Fin 2 => (constField c (0 + initTrial (hairerNorm fun i : Fin 2 => (0 : ℝ))
      (hairerNorm fun i => constField c 0 (fun _ => 0) i / (1 / 1000 + |(0 : ℝ)| * (1 / 1000))))
      (fun i => 0 + initTrial (hairerNorm fun i : Fin 2 => (0 : ℝ))
      (hairerNorm fun i => constField c 0 (fun _ => 0) i / (1 / 1000 + |(0 : ℝ)| * (1 / 1000))) *
        constField c 0 (fun _ => 0) i) i - constField c 0 (fun _ => 0) i) /
      (1 / 1000 + |(0 : ℝ)| * (1 / 1000))) = fun _ => 0 := by
    funext i
    simp [constField]
  rw [hdiff, hz, hd1]
  have ht : ∀ d, initTrial 0 d = 1 / 10 ^ 6 := by
    intro d
    unfold initTrial
    rw [if_pos (Or.inl (by norm_num))]
  rw [ht]
  congr 1
  unfold initSecond
  rcases hc with ⟨rfl, rfl⟩ | ⟨rfl, rfl⟩
  · rw [if_pos (by norm_num)]
    norm_num
  · have hs : Real.sqrt ((1000 * (1 / 10 ^ 5)) ^ 2 / 2) ≤ 1 / 100 := by
      rw [Real.sqrt_le_left (by norm_num)]
      norm_num
    have hs0 : 1 / 1000 ≤ Real.sqrt ((1000 * (1 / 10 ^ 5)) ^ 2 / 2) := by
      apply Real.le_sqrt_of_sq_le
      norm_num
    rw [if_neg (by
      rintro ⟨h1, _⟩
      have := hs0.trans h1
      norm_num at this)]
    rw [zero_div, max_eq_left (by positivity)]
    have h1 : (1 : ℝ) ≤ 1 / 100 / Real.sqrt ((1000 * (1 / 10 ^ 5)) ^ 2 / 2) := by
      rw [le_div_iff₀ (by linarith)]
      linarith
    have h2 := Real.one_le_rpow h1 (z := 1 / ((5 : ℕ) + 1 : ℝ)) (by positivity)
    rw [min_eq_left (le_trans (by norm_num) h2)]
    norm_num

theorem constField_err (c : ℝ) (x : Fin 2 → ℝ) (t dt : ℝ) (k1 k x' e : Fin 2 → ℝ) (st)
    (hk : k1 0 = 0)
    (h : (dopri5Solver (Except PyErr) ℝ (Fin 2 → ℝ) Unit).step (fun t x => .ok (constField c t x)) x t dt
      (some k1) () = .ok (.four k x' e st)) : e 0 = 0 := by
  cases h
  simp only [constField, Pi.smul_apply, Pi.add_apply, hk, smul_eq_mul, mul_zero, Matrix.cons_val_zero,
    add_zero]

theorem constField_run (c dt : ℝ)
    (hc : c = 0 ∧ dt = 1 / 10 ^ 6 ∨ c = 1 / 10 ^ 5 ∧ dt = 1 / 10 ^ 4) :
    ∃ r, odeint 2 (pureField (constField c)) (fun _ => 0) [0, 1 / 10 ^ 4]
      (dopri5Solver (Except PyErr) ℝ (Fin 2 → ℝ) Unit) (1 / 1000) (1 / 1000) false false [] () {0} = .ok r ∧
      (r = none ↔ dt < 1 / 10 ^ 4) := by
  have hs := dopri5_fsalSolver (ι := Fin 2) ()
  obtain ⟨dt', hdt', hi, e⟩ := odeint_forward 2 (constField c) (fun _ => 0) (t0 := 0) (t1 := 1 / 10 ^ 4) []
    (dopri5Solver (Except PyErr) ℝ (Fin 2 → ℝ) Unit) rfl (1 / 1000) (1 / 1000) false false [] () {0}
    (by norm_num)
  have hdd : dt = dt' := by
    have h1 := constField_initStep c dt hc
    have h2 : (dopri5Solver (Except PyErr) ℝ (Fin 2 → ℝ) Unit).order = 5 := rfl
    rw [h2, h1] at hi
    cases hi
    rfl
  subst hdd
  have hinc : ([0, 1 / 10 ^ 4] : List ℝ).Pairwise (· < ·) := by simp
  have hT : ([1 / 10 ^ 4] : List ℝ).getLast? = some (1 / 10 ^ 4) := rfl
  have hle : dt ≤ 1 / 10 ^ 4 := by
    rcases hc with ⟨_, rfl⟩ | ⟨_, rfl⟩ <;> norm_num
  rw [e, adaptiveOdeint_eq_loop _ _ _ _ _ _ _ _ _ hT]
  obtain ⟨out, ho1, ho2, ho3, had⟩ := hs.out (constField c) (1 / 1000) (1 / 1000) {0}
    (odeintInterp (dopri5Solver (Except PyErr) ℝ (Fin 2 → ℝ) Unit) false) false
  have hinv := adaptiveInit_inv (constField c 0 (fun _ => 0)) (fun _ : Fin 2 => (0 : ℝ)) hdt' hinc hT
  have ht0 : (adaptiveInit (constField c 0 (fun _ => 0)) (fun _ : Fin 2 => (0 : ℝ)) dt 0).t < 1 / 10 ^ 4 := by
    norm_num [adaptiveInit]
  obtain ⟨d, s', h1, h2, h3, dt'', _, _, h4, _⟩ := adaptiveIter_spec ho1 had
    (List.pairwise_cons.1 hinc).2 hT hinv ht0
  have hclamp : clampDt (1 / 10 ^ 4) (adaptiveInit (constField c 0 (fun _ => 0)) (fun _ : Fin 2 => (0 : ℝ)) dt 0)
      = dt := by
    unfold clampDt
    rw [if_neg]
    · rfl
    · simp only [adaptiveInit, zero_add, not_lt]; exact hle
  have hd : d = dt := by
    rcases h4 with ⟨_, h⟩ | ⟨_, _, h, h'⟩
    · rw [h, hclamp]
    · rw [hclamp] at h
      simp only [adaptiveInit, zero_add, List.mem_singleton] at h'
      linarith
  subst hd
  have herr : errorRatio {0} (1 / 1000) (1 / 1000) (fun _ : Fin 2 => (0 : ℝ))
      (out (fun _ => 0) 0 d (constField c 0 (fun _ => 0))).2.1
      (out (fun _ => 0) 0 d (constField c 0 (fun _ => 0))).2.2.1 ≤ 1 := by
    have h0 := constField_err c _ _ _ _ _ _ _ _ rfl
      (ho1 (fun _ => 0) 0 d (constField c 0 (fun _ => 0)))
    simp [errorRatio, hairerNormOn, errorScaled, h0]
  obtain ⟨h5, -⟩ := h2.accepted herr
  have h5' : s'.t = d := by rw [h5]; simp [adaptiveInit]
  rw [adaptiveLoop, if_pos ht0, h1]
  simp only [bind, Except.bind]
  by_cases hlt : d < 1 / 10 ^ 4
  · have ht' : s'.t < 1 / 10 ^ 4 := by rw [h5']; exact hlt
    obtain ⟨d', s'', g1, -⟩ := adaptiveIter_spec ho1 had (List.pairwise_cons.1 hinc).2 hT h3 ht'
    refine ⟨none, ?_, by simpa using hlt⟩
    rw [adaptiveLoop, if_pos ht', g1]
    rfl
  · refine ⟨some (s'.evalTimes, s'.sol), ?_, by simpa using hlt⟩
    rw [adaptiveLoop, if_neg (by rw [h5']; exact hlt)]
    rfl

/-- **C72 (refuted as stated).** Two problems with the same initial state whose fields agree on the
kept entry (both are `0` there, and do not depend on the state), integrated with the seminorm that
keeps only this entry, with the default tolerances: after two tests of the loop condition one call has
returned and the other has not, because `init_step` measures the excluded entry too. -/
theorem C72_initial_step_refuted :
    ∃ f g : ℝ → (Fin 2 → ℝ) → (Fin 2 → ℝ), (∀ t x, f t x 0 = 0) ∧ (∀ t x, g t x 0 = 0) ∧
    ∃ r, odeint 2 (pureField f) (fun _ => 0) [0, 1 / 10 ^ 4]
        (dopri5Solver (Except PyErr) ℝ (Fin 2 → ℝ) Unit) (1 / 1000) (1 / 1000) false false [] () {0}
        = .ok none ∧
      odeint 2 (pureField g) (fun _ => 0) [0, 1 / 10 ^ 4]
        (dopri5Solver (Except PyErr) ℝ (Fin 2 → ℝ) Unit) (1 / 1000) (1 / 1000) false false [] () {0}
        = .ok (some r) := by
  obtain ⟨r, hr, h⟩ := constField_run 0 (1 / 10 ^ 6) (Or.inl ⟨rfl, rfl⟩)
  obtain ⟨r', hr', h'⟩ := constField_run (1 / 10 ^ 5) (1 / 10 ^ 4) (Or.inr ⟨rfl, rfl⟩)
  have e : r = none := h.2 (by norm_num)
  subst e
  cases r' with
  | none => exact absurd (h'.1 rfl) (lt_irrefl _)
  | some r' => exact ⟨constField 0, constField (1 / 10 ^ 5), fun _ _ => rfl, fun _ _ => rfl, r', hr, hr'⟩

end Torchdyn
