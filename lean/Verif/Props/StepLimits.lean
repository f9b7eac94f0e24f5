import Mathlib.Analysis.Complex.Basic
import Mathlib.Topology.Order.IntermediateValue
import Verif.Props.Sensitivity
import Verif.Props.Energy

/-!
Property C134: with which step sizes the fixed-step solvers keep a decaying mode decaying and an oscillating mode bounded.
-/

set_option linter.unusedSectionVars false
set_option linter.unusedSimpArgs false

namespace Torchdyn

open Spec Complex

section modes

variable {A V : Type} [AddCommGroup V] [Module ℝ V]

/-- The factor by which a solver of order `p` multiplies a mode with `h λ = z` in each step. -/
noncomputable def modeFactor (p : ℕ) (z : ℂ) : ℂ := ∑ j ∈ Finset.range (p + 1), z ^ j / (j.factorial : ℂ)

/-- Multiplication by `a`. -/
noncomputable def mulBy (a : ℂ) : ℂ →ₗ[ℝ] ℂ := LinearMap.mulLeft ℝ a

theorem mulBy_pow (a z : ℂ) (j : ℕ) : (mulBy a ^ j) z = a ^ j * z := by
  induction j generalizing z with
  | zero => simp
  | succ j ih => rw [pow_succ', Module.End.mul_apply, ih, mulBy, LinearMap.mulLeft_apply]; ring

theorem expTaylor_mulBy (p : ℕ) (a z : ℂ) (h : ℝ) : expTaylor p (mulBy a) h z = modeFactor p (h * a) * z := by
  unfold expTaylor modeFactor
  rw [Finset.sum_mul]
  refine Finset.sum_congr rfl fun j _ => ?_
  rw [mulBy_pow, Complex.real_smul]
  push_cast
  ring

/-- **C134.** Let `π` be a mode of the field: a complex amplitude, linear in the state, with `π(f(t, x)) = λ π(x)`. On a grid with
constant gap `h`, `euler`, `midpoint` and `rk4` (`p = 1, 2, 4`) multiply the amplitude in every step by
`1 + hλ + … + (hλ)^p / p!`. -/
theorem C134_mode {p : ℕ} {S : SolverFamily (Except PyErr) ℝ A} (hS : TaylorSolver p S) (π : V →ₗ[ℝ] ℂ) (a : ℂ)
    (f : ℝ → V → V) (hf : ∀ t v, π (f t v) = a * π v) (args : A) (x : V) (h t0 t1 : ℝ) (rest : List ℝ) (hd : t0 ≤ t1)
    (hsep : Separated (t0 :: t1 :: rest))
    (hgap : ∀ (k : ℕ) (t t' : ℝ), (t0 :: t1 :: rest)[k]? = some t → (t0 :: t1 :: rest)[k + 1]? = some t' → t' - t = h) :
    ∃ sol, odeintFixed (pureField f) x (t0 :: t1 :: rest) (S V) [] args = .ok (t0 :: t1 :: rest, sol) ∧
      sol.length = (t0 :: t1 :: rest).length ∧
      ∀ (k : ℕ) (y : V), sol[k]? = some y → π y = (∑ j ∈ Finset.range (p + 1), (h * a) ^ j / (j.factorial : ℂ)) ^ k * π x := by
  obtain ⟨φ, hφ, hπ⟩ := hS V ℂ π (mulBy a) f hf args
  obtain ⟨sol, hsol, htraj⟩ := C12_trajectory hφ x t0 t1 rest hd hsep
  refine ⟨sol, hsol, htraj.length_eq, ?_⟩
  change ∀ (k : ℕ) (y : V), sol[k]? = some y → π y = modeFactor p (h * a) ^ k * π x
  intro k
  induction k with
  | zero =>
    intro y hy
    rw [htraj.start] at hy
    cases hy
    rw [pow_zero, one_mul]
  | succ k ih =>
    intro y' hy'
    obtain ⟨hk, -⟩ := List.getElem?_eq_some_iff.1 hy'
    have hk1 : k + 1 < (t0 :: t1 :: rest).length := by rw [← htraj.length_eq]; exact hk
    obtain ⟨y, hy⟩ : ∃ y, sol[k]? = some y := ⟨sol[k], List.getElem?_eq_getElem (by omega)⟩
    have ht := List.getElem?_eq_getElem (l := t0 :: t1 :: rest) (i := k) (by omega)
    have ht' := List.getElem?_eq_getElem (l := t0 :: t1 :: rest) (i := k + 1) hk1
    have hn := htraj.next k _ _ y ht ht' hy
    rw [hgap k _ _ ht ht', hy'] at hn
    rw [Option.some.inj hn, hπ, expTaylor_mulBy, ih y hy]
    ring

/-- The amplitude after `k` steps when each step multiplies it by a factor of modulus `ρ`. -/
theorem mode_norm {p : ℕ} {S : SolverFamily (Except PyErr) ℝ A} (hS : TaylorSolver p S) (π : V →ₗ[ℝ] ℂ) (a : ℂ)
    (f : ℝ → V → V) (hf : ∀ t v, π (f t v) = a * π v) (args : A) (x : V) (h t0 t1 : ℝ) (rest : List ℝ) (hd : t0 ≤ t1)
    (hsep : Separated (t0 :: t1 :: rest))
    (hgap : ∀ (k : ℕ) (t t' : ℝ), (t0 :: t1 :: rest)[k]? = some t → (t0 :: t1 :: rest)[k + 1]? = some t' → t' - t = h)
    (ρ : ℝ) (hρ : ‖modeFactor p (h * a)‖ = ρ) :
    ∃ sol, odeintFixed (pureField f) x (t0 :: t1 :: rest) (S V) [] args = .ok (t0 :: t1 :: rest, sol) ∧
      sol.length = (t0 :: t1 :: rest).length ∧ ∀ (k : ℕ) (y : V), sol[k]? = some y → ‖π y‖ = ρ ^ k * ‖π x‖ := by
  obtain ⟨sol, h1, h2, h3⟩ := C134_mode hS π a f hf args x h t0 t1 rest hd hsep hgap
  refine ⟨sol, h1, h2, fun k y hy => ?_⟩
  have h4 : π y = modeFactor p (h * a) ^ k * π x := h3 k y hy
  rw [h4, norm_mul, norm_pow, hρ]

/-! ### Decaying modes -/

theorem modeFactor_real (p : ℕ) (z : ℝ) :
    ‖modeFactor p (z : ℂ)‖ = |∑ j ∈ Finset.range (p + 1), z ^ j / (j.factorial : ℝ)| := by
  have : modeFactor p (z : ℂ) = ((∑ j ∈ Finset.range (p + 1), z ^ j / (j.factorial : ℝ) : ℝ) : ℂ) := by
    unfold modeFactor
    push_cast
    rfl
  rw [this, Complex.norm_real, Real.norm_eq_abs]

/-- **C134**, `euler` on a decaying mode `λ = -a`: each step multiplies the amplitude by `ρ = |1 - ha|`; it decays if and only if
`ha < 2`, and grows if and only if `ha > 2`. -/
theorem C134_euler_decay (π : V →ₗ[ℝ] ℂ) (a : ℝ) (ha : 0 < a) (f : ℝ → V → V) (hf : ∀ t v, π (f t v) = (-a : ℝ) * π v)
    (args : A) (x : V) (h t0 t1 : ℝ) (hh : 0 < h) (rest : List ℝ) (hd : t0 ≤ t1) (hsep : Separated (t0 :: t1 :: rest))
    (hgap : ∀ (k : ℕ) (t t' : ℝ), (t0 :: t1 :: rest)[k]? = some t → (t0 :: t1 :: rest)[k + 1]? = some t' → t' - t = h) :
    ∃ ρ sol, odeintFixed (pureField f) x (t0 :: t1 :: rest) (eulerSolver (Except PyErr) ℝ V A) [] args =
        .ok (t0 :: t1 :: rest, sol) ∧ sol.length = (t0 :: t1 :: rest).length ∧
      (∀ (k : ℕ) (y : V), sol[k]? = some y → ‖π y‖ = ρ ^ k * ‖π x‖) ∧ 0 ≤ ρ ∧ (ρ < 1 ↔ h * a < 2) ∧ (1 < ρ ↔ 2 < h * a) := by
  have hz : 0 < h * a := mul_pos hh ha
  have hρ : ‖modeFactor 1 (h * (-a : ℝ))‖ = |1 - h * a| := by
    rw [← Complex.ofReal_mul, modeFactor_real]
    congr 1
    simp [Finset.sum_range_succ]
    ring
  obtain ⟨sol, h1, h2, h3⟩ := mode_norm euler_taylorSolver π _ f hf args x h t0 t1 rest hd hsep hgap _ hρ
  refine ⟨_, sol, h1, h2, h3, abs_nonneg _, ?_, ?_⟩
  · rw [abs_lt]
    exact ⟨fun H => by linarith [H.1], fun H => ⟨by linarith, by linarith⟩⟩
  · rw [lt_abs]
    exact ⟨fun H => by rcases H with H | H <;> linarith, fun H => Or.inr (by linarith)⟩

/-- **C134**, `midpoint` on a decaying mode `λ = -a`: the same limit as `euler`, `ha < 2`. -/
theorem C134_midpoint_decay (π : V →ₗ[ℝ] ℂ) (a : ℝ) (ha : 0 < a) (f : ℝ → V → V) (hf : ∀ t v, π (f t v) = (-a : ℝ) * π v)
    (args : A) (x : V) (h t0 t1 : ℝ) (hh : 0 < h) (rest : List ℝ) (hd : t0 ≤ t1) (hsep : Separated (t0 :: t1 :: rest))
    (hgap : ∀ (k : ℕ) (t t' : ℝ), (t0 :: t1 :: rest)[k]? = some t → (t0 :: t1 :: rest)[k + 1]? = some t' → t' - t = h) :
    ∃ ρ sol, odeintFixed (pureField f) x (t0 :: t1 :: rest) (midpointSolver (Except PyErr) ℝ V A) [] args =
        .ok (t0 :: t1 :: rest, sol) ∧ sol.length = (t0 :: t1 :: rest).length ∧
      (∀ (k : ℕ) (y : V), sol[k]? = some y → ‖π y‖ = ρ ^ k * ‖π x‖) ∧ 0 ≤ ρ ∧ (ρ < 1 ↔ h * a < 2) ∧ (1 < ρ ↔ 2 < h * a) := by
  have hz : 0 < h * a := mul_pos hh ha
  have hρ : ‖modeFactor 2 (h * (-a : ℝ))‖ = 1 - h * a + (h * a) ^ 2 / 2 := by
    rw [← Complex.ofReal_mul, modeFactor_real, abs_of_nonneg]
    · simp [Finset.sum_range_succ, Nat.factorial]
      ring
    · simp [Finset.sum_range_succ, Nat.factorial]
      nlinarith [sq_nonneg (h * a - 1)]
  obtain ⟨sol, h1, h2, h3⟩ := mode_norm midpoint_taylorSolver π _ f hf args x h t0 t1 rest hd hsep hgap _ hρ
  refine ⟨_, sol, h1, h2, h3, by nlinarith [sq_nonneg (h * a - 1)], ?_, ?_⟩
  · constructor
    · intro H
      by_contra hc
      nlinarith
    · intro H
      nlinarith
  · constructor
    · intro H
      by_contra hc
      nlinarith
    · intro H
      nlinarith

theorem cubic_limit : ∃ z : ℝ, 2785 / 1000 < z ∧ z < 2786 / 1000 ∧ z ^ 3 - 4 * z ^ 2 + 12 * z - 24 = 0 := by
  have hc : ContinuousOn (fun z : ℝ => z ^ 3 - 4 * z ^ 2 + 12 * z - 24) (Set.Icc (2785 / 1000) (2786 / 1000)) := by fun_prop
  obtain ⟨z, hz, e⟩ := intermediate_value_Ioo (by norm_num) hc (show (0 : ℝ) ∈ Set.Ioo _ _ from ⟨by norm_num, by norm_num⟩)
  exact ⟨z, hz.1, hz.2, e⟩

/-- **C134**, `rk4` on a decaying mode `λ = -a`: there is a number `z*` between 2.785 and 2.786, the root of
`z³ - 4z² + 12z - 24`, such that the amplitude decays if and only if `ha < z*` and grows if and only if `ha > z*`. -/
theorem C134_rk4_decay : ∃ zs : ℝ, 2785 / 1000 < zs ∧ zs < 2786 / 1000 ∧
    ∀ (A V : Type) [AddCommGroup V] [Module ℝ V] (π : V →ₗ[ℝ] ℂ) (a : ℝ) (_ : 0 < a) (f : ℝ → V → V)
      (_ : ∀ t v, π (f t v) = (-a : ℝ) * π v) (args : A) (x : V) (h t0 t1 : ℝ) (_ : 0 < h) (rest : List ℝ) (_ : t0 ≤ t1)
      (_ : Separated (t0 :: t1 :: rest))
      (_ : ∀ (k : ℕ) (t t' : ℝ), (t0 :: t1 :: rest)[k]? = some t → (t0 :: t1 :: rest)[k + 1]? = some t' → t' - t = h),
      ∃ ρ sol, odeintFixed (pureField f) x (t0 :: t1 :: rest) (rk4Solver (Except PyErr) ℝ V A) [] args =
          .ok (t0 :: t1 :: rest, sol) ∧ sol.length = (t0 :: t1 :: rest).length ∧
        (∀ (k : ℕ) (y : V), sol[k]? = some y → ‖π y‖ = ρ ^ k * ‖π x‖) ∧ 0 ≤ ρ ∧ (ρ < 1 ↔ h * a < zs) ∧ (1 < ρ ↔ zs < h * a) := by
  obtain ⟨zs, l1, l2, hzs⟩ := cubic_limit
  refine ⟨zs, l1, l2, ?_⟩
  intro A V _ _ π a ha f hf args x h t0 t1 hh rest hd hsep hgap
  have hz : 0 < h * a := mul_pos hh ha
  have e0 : ∀ z : ℝ, 1 - z + z ^ 2 / 2 - z ^ 3 / 6 + z ^ 4 / 24 - 1 =
      z / 24 * (z - zs) * (z ^ 2 + z * zs + zs ^ 2 - 4 * (z + zs) + 12) := fun z => by
    linear_combination (z / 24) * hzs
  have e1 : ∀ z : ℝ, 0 < z ^ 2 + z * zs + zs ^ 2 - 4 * (z + zs) + 12 := fun z => by
    nlinarith [sq_nonneg (z + zs / 2 - 2)]
  have e2 : ∀ z : ℝ, 0 ≤ 1 - z + z ^ 2 / 2 - z ^ 3 / 6 + z ^ 4 / 24 := fun z => by
    nlinarith [sq_nonneg (z ^ 2 - 2 * z), sq_nonneg (z - 3 / 2), sq_nonneg (z ^ 2 - 2 * z + 1)]
  have hρ : ‖modeFactor 4 (h * (-a : ℝ))‖ = 1 - h * a + (h * a) ^ 2 / 2 - (h * a) ^ 3 / 6 + (h * a) ^ 4 / 24 := by
    rw [← Complex.ofReal_mul, modeFactor_real]
    rw [← abs_of_nonneg (e2 (h * a))]
    congr 1
    simp [Finset.sum_range_succ, Nat.factorial]
    ring
  obtain ⟨sol, h1, h2, h3⟩ := mode_norm rk4_taylorSolver π _ f hf args x h t0 t1 rest hd hsep hgap _ hρ
  have hc := e0 (h * a)
  have hp := e1 (h * a)
  have hq : 0 < h * a / 24 := by positivity
  refine ⟨_, sol, h1, h2, h3, e2 _, ?_, ?_⟩
  · rw [← sub_neg, hc]
    constructor
    · intro H
      by_contra hcon
      have := mul_nonneg (mul_nonneg hq.le (sub_nonneg.2 (not_lt.1 hcon))) hp.le
      linarith
    · intro H
      have := mul_pos (mul_pos hq (sub_pos.2 H)) hp
      linarith
  · rw [← sub_pos, hc, mul_pos_iff_of_pos_right hp, mul_pos_iff_of_pos_left hq, sub_pos]

/-! ### Oscillating modes -/

theorem modeFactor_imag_one (z : ℝ) : ‖modeFactor 1 (z * I)‖ ^ 2 = 1 + z ^ 2 := by
  have : modeFactor 1 (z * I) = ((1 : ℝ) : ℂ) + (z : ℝ) * I := by
    simp [modeFactor, Finset.sum_range_succ]
  rw [this, Complex.sq_norm, Complex.normSq_add_mul_I]
  ring

theorem modeFactor_imag_two (z : ℝ) : ‖modeFactor 2 (z * I)‖ ^ 2 = 1 + z ^ 4 / 4 := by
  have : modeFactor 2 (z * I) = ((1 - z ^ 2 / 2 : ℝ) : ℂ) + (z : ℝ) * I := by
    simp [modeFactor, Finset.sum_range_succ, Nat.factorial, mul_pow]
    ring
  rw [this, Complex.sq_norm, Complex.normSq_add_mul_I]
  ring

theorem modeFactor_imag_four (z : ℝ) : ‖modeFactor 4 (z * I)‖ ^ 2 = 1 - z ^ 6 / 72 + z ^ 8 / 576 := by
  have : modeFactor 4 (z * I) = ((1 - z ^ 2 / 2 + z ^ 4 / 24 : ℝ) : ℂ) + (z - z ^ 3 / 6 : ℝ) * I := by
    have h3 : I ^ 3 = -I := by rw [pow_succ, I_sq]; ring
    have h4 : I ^ 4 = 1 := I_pow_four
    simp [modeFactor, Finset.sum_range_succ, Nat.factorial, mul_pow, h3, h4]
    ring
  rw [this, Complex.sq_norm, Complex.normSq_add_mul_I]
  ring

/-- **C134**, `euler` on an oscillating mode `λ = iω`: the squared amplitude, the energy of the oscillator, is multiplied in each
step by `1 + (hω)²`: it grows for every step size. -/
theorem C134_euler_oscillation (π : V →ₗ[ℝ] ℂ) (ω : ℝ) (hω : ω ≠ 0) (f : ℝ → V → V) (hf : ∀ t v, π (f t v) = ω * I * π v)
    (args : A) (x : V) (h t0 t1 : ℝ) (hh : 0 < h) (rest : List ℝ) (hd : t0 ≤ t1) (hsep : Separated (t0 :: t1 :: rest))
    (hgap : ∀ (k : ℕ) (t t' : ℝ), (t0 :: t1 :: rest)[k]? = some t → (t0 :: t1 :: rest)[k + 1]? = some t' → t' - t = h) :
    ∃ q sol, odeintFixed (pureField f) x (t0 :: t1 :: rest) (eulerSolver (Except PyErr) ℝ V A) [] args =
        .ok (t0 :: t1 :: rest, sol) ∧ sol.length = (t0 :: t1 :: rest).length ∧
      (∀ (k : ℕ) (y : V), sol[k]? = some y → ‖π y‖ ^ 2 = q ^ k * ‖π x‖ ^ 2) ∧ q = 1 + (h * ω) ^ 2 ∧ 1 < q := by
  have hz : 0 < (h * ω) ^ 2 := by have := mul_ne_zero hh.ne' hω; positivity
  have hq : ‖modeFactor 1 (h * (ω * I))‖ ^ 2 = 1 + (h * ω) ^ 2 := by
    rw [← mul_assoc, ← Complex.ofReal_mul, modeFactor_imag_one]
  obtain ⟨sol, h1, h2, h3⟩ := mode_norm euler_taylorSolver π _ f hf args x h t0 t1 rest hd hsep hgap _ rfl
  refine ⟨_, sol, h1, h2, fun k y hy => ?_, rfl, ?_⟩
  · rw [h3 k y hy, mul_pow, ← pow_mul, mul_comm k 2, pow_mul, hq]
  · linarith

/-- **C134**, `midpoint` on an oscillating mode: the squared amplitude is multiplied in each step by `1 + (hω)⁴/4`: it grows for
every step size. -/
theorem C134_midpoint_oscillation (π : V →ₗ[ℝ] ℂ) (ω : ℝ) (hω : ω ≠ 0) (f : ℝ → V → V) (hf : ∀ t v, π (f t v) = ω * I * π v)
    (args : A) (x : V) (h t0 t1 : ℝ) (hh : 0 < h) (rest : List ℝ) (hd : t0 ≤ t1) (hsep : Separated (t0 :: t1 :: rest))
    (hgap : ∀ (k : ℕ) (t t' : ℝ), (t0 :: t1 :: rest)[k]? = some t → (t0 :: t1 :: rest)[k + 1]? = some t' → t' - t = h) :
    ∃ q sol, odeintFixed (pureField f) x (t0 :: t1 :: rest) (midpointSolver (Except PyErr) ℝ V A) [] args =
        .ok (t0 :: t1 :: rest, sol) ∧ sol.length = (t0 :: t1 :: rest).length ∧
      (∀ (k : ℕ) (y : V), sol[k]? = some y → ‖π y‖ ^ 2 = q ^ k * ‖π x‖ ^ 2) ∧ q = 1 + (h * ω) ^ 4 / 4 ∧ 1 < q := by
  have hz : 0 < (h * ω) ^ 2 := by have := mul_ne_zero hh.ne' hω; positivity
  have hq : ‖modeFactor 2 (h * (ω * I))‖ ^ 2 = 1 + (h * ω) ^ 4 / 4 := by
    rw [← mul_assoc, ← Complex.ofReal_mul, modeFactor_imag_two]
  obtain ⟨sol, h1, h2, h3⟩ := mode_norm midpoint_taylorSolver π _ f hf args x h t0 t1 rest hd hsep hgap _ rfl
  refine ⟨_, sol, h1, h2, fun k y hy => ?_, rfl, ?_⟩
  · rw [h3 k y hy, mul_pow, ← pow_mul, mul_comm k 2, pow_mul, hq]
  · have : 0 < (h * ω) ^ 4 := by rw [show (h * ω) ^ 4 = ((h * ω) ^ 2) ^ 2 by ring]; positivity
    linarith

/-- **C134**, `rk4` on an oscillating mode: the squared amplitude is multiplied in each step by `1 - (hω)⁶/72 + (hω)⁸/576`: it
decreases if and only if `(hω)² < 8` and grows if and only if `(hω)² > 8`. -/
theorem C134_rk4_oscillation (π : V →ₗ[ℝ] ℂ) (ω : ℝ) (hω : ω ≠ 0) (f : ℝ → V → V) (hf : ∀ t v, π (f t v) = ω * I * π v)
    (args : A) (x : V) (h t0 t1 : ℝ) (hh : 0 < h) (rest : List ℝ) (hd : t0 ≤ t1) (hsep : Separated (t0 :: t1 :: rest))
    (hgap : ∀ (k : ℕ) (t t' : ℝ), (t0 :: t1 :: rest)[k]? = some t → (t0 :: t1 :: rest)[k + 1]? = some t' → t' - t = h) :
    ∃ q sol, odeintFixed (pureField f) x (t0 :: t1 :: rest) (rk4Solver (Except PyErr) ℝ V A) [] args =
        .ok (t0 :: t1 :: rest, sol) ∧ sol.length = (t0 :: t1 :: rest).length ∧
      (∀ (k : ℕ) (y : V), sol[k]? = some y → ‖π y‖ ^ 2 = q ^ k * ‖π x‖ ^ 2) ∧ q = 1 - (h * ω) ^ 6 / 72 + (h * ω) ^ 8 / 576 ∧ 
      (q < 1 ↔ (h * ω) ^ 2 < 8) ∧ (1 < q ↔ 8 < (h * ω) ^ 2) := by
  have hz : 0 < (h * ω) ^ 2 := by have := mul_ne_zero hh.ne' hω; positivity
  have hq : ‖modeFactor 4 (h * (ω * I))‖ ^ 2 = 1 - (h * ω) ^ 6 / 72 + (h * ω) ^ 8 / 576 := by
    rw [← mul_assoc, ← Complex.ofReal_mul, modeFactor_imag_four]
  obtain ⟨sol, h1, h2, h3⟩ := mode_norm rk4_taylorSolver π _ f hf args x h t0 t1 rest hd hsep hgap _ rfl
  refine ⟨_, sol, h1, h2, fun k y hy => ?_, rfl, ?_⟩
  · rw [h3 k y hy, mul_pow, ← pow_mul, mul_comm k 2, pow_mul, hq]
  · have e : 1 - (h * ω) ^ 6 / 72 + (h * ω) ^ 8 / 576 - 1 = ((h * ω) ^ 2) ^ 3 / 576 * ((h * ω) ^ 2 - 8) := by ring
    generalize (h * ω) ^ 2 = w at hz e
    have hw : 0 < w ^ 3 / 576 := by positivity
    rw [← sub_neg, e, ← sub_pos (b := (1 : ℝ)), e]
    refine ⟨⟨fun H => ?_, fun H => ?_⟩, ⟨fun H => ?_, fun H => ?_⟩⟩
    · by_contra hc
      have := mul_nonneg hw.le (sub_nonneg.2 (not_lt.1 hc))
      linarith
    · have := mul_pos hw (sub_pos.2 H)
      linarith
    · exact sub_pos.1 ((mul_pos_iff_of_pos_left hw).1 H)
    · exact mul_pos hw (sub_pos.2 H)

end modes

/-! ### The energy of a HNN -/

section hnn

variable {A B : Type} [Fintype B] [DecidableEq B]

/-- Sample `b` of a batch of oscillators as a complex number. -/
noncomputable def oscillatorMode (b : B) : RowBatch B 2 →ₗ[ℝ] ℂ where
  toFun x := (x b 0 : ℂ) + x b 1 * I
  map_add' x y := by simp only [Pi.add_apply]; push_cast; ring
  map_smul' c x := by simp only [Pi.smul_apply, smul_eq_mul, RingHom.id_apply, Complex.real_smul]; push_cast; ring

theorem oscillatorMode_norm (b : B) (x : RowBatch B 2) : ‖oscillatorMode b x‖ ^ 2 = x b 0 ^ 2 + x b 1 ^ 2 := by
  show ‖(x b 0 : ℂ) + x b 1 * I‖ ^ 2 = _
  rw [Complex.sq_norm, Complex.normSq_add_mul_I]

theorem hnn_oscillator_batch (x : RowBatch B 2) (b : B) :
    hnnForward (fun (y : RowBatch B 2) (k : B) => (y k 0 ^ 2 + y k 1 ^ 2) / 2) x b = ![x b 1, -x b 0] := by
  have hd : Differentiable ℝ fun q : Fin 2 → ℝ => (q 0 ^ 2 + q 1 ^ 2) / 2 := by fun_prop
  have hg : ∀ (q v : Fin 2 → ℝ), fderiv ℝ (fun q : Fin 2 → ℝ => (q 0 ^ 2 + q 1 ^ 2) / 2) q v = q 0 * v 0 + q 1 * v 1 := by
    intro q v
    have h0 : HasFDerivAt (fun z : Fin 2 → ℝ => z 0) (ContinuousLinearMap.proj (R := ℝ) (φ := fun _ : Fin 2 => ℝ) 0)
        q := (ContinuousLinearMap.proj (R := ℝ) (φ := fun _ : Fin 2 => ℝ) 0).hasFDerivAt
    have h1 : HasFDerivAt (fun z : Fin 2 → ℝ => z 1) (ContinuousLinearMap.proj (R := ℝ) (φ := fun _ : Fin 2 => ℝ) 1)
        q := (ContinuousLinearMap.proj (R := ℝ) (φ := fun _ : Fin 2 => ℝ) 1).hasFDerivAt
    have h : HasFDerivAt (fun z : Fin 2 → ℝ => (z 0 ^ 2 + z 1 ^ 2) * (1 / 2)) _ q :=
      ((h0.pow 2).add (h1.pow 2)).mul_const (1 / 2 : ℝ)
    have e : (fun z : Fin 2 → ℝ => (z 0 ^ 2 + z 1 ^ 2) / 2) = fun z => (z 0 ^ 2 + z 1 ^ 2) * (1 / 2) := by
      funext z
      ring
    rw [e, h.fderiv]
    simp
    ring
  have e : ∀ i, autogradGrad (outputSum fun (y : RowBatch B 2) (k : B) => (y k 0 ^ 2 + y k 1 ^ 2) / 2) x b i = x b i := by
    intro i
    have := autogradGrad_perSample (fun q : Fin 2 → ℝ => (q 0 ^ 2 + q 1 ^ 2) / 2) hd x b i
    refine this.trans ?_
    rw [hg]
    fin_cases i <;> simp
  funext i
  fin_cases i
  · simp [hnnForward, e]
  · simp [hnnForward, e]

/-- **C134** for a `HNN` whose energy is that of the oscillator, `H(q, p) = (q² + p²)/2`: `euler` multiplies the energy of every
sample by `1 + h²` in every step, for every step size, where the solution keeps it (C59). -/
theorem C134_hnn_euler (args : A) (x : RowBatch B 2) (h t0 t1 : ℝ) (hh : 0 < h) (rest : List ℝ) (hd : t0 ≤ t1)
    (hsep : Separated (t0 :: t1 :: rest))
    (hgap : ∀ (k : ℕ) (t t' : ℝ), (t0 :: t1 :: rest)[k]? = some t → (t0 :: t1 :: rest)[k + 1]? = some t' → t' - t = h) :
    ∃ sol, odeintFixed (pureField fun _ => hnnForward (fun (y : RowBatch B 2) (k : B) => (y k 0 ^ 2 + y k 1 ^ 2) / 2)) x
        (t0 :: t1 :: rest) (eulerSolver (Except PyErr) ℝ (RowBatch B 2) A) [] args = .ok (t0 :: t1 :: rest, sol) ∧
      sol.length = (t0 :: t1 :: rest).length ∧
      ∀ (k : ℕ) (y : RowBatch B 2), sol[k]? = some y → ∀ b,
        (y b 0 ^ 2 + y b 1 ^ 2) / 2 = (1 + h ^ 2) ^ k * ((x b 0 ^ 2 + x b 1 ^ 2) / 2) := by
  set f : ℝ → RowBatch B 2 → RowBatch B 2 :=
    fun _ => hnnForward (fun (y : RowBatch B 2) (k : B) => (y k 0 ^ 2 + y k 1 ^ 2) / 2) with hfdef
  obtain ⟨sol, hsol, htraj⟩ := C12_trajectory (euler_steppedBy f args) x t0 t1 rest hd hsep
  refine ⟨sol, hsol, htraj.length_eq, fun k y hy b => ?_⟩
  obtain ⟨q, sol', h1, -, h3, hq, -⟩ := C134_euler_oscillation (oscillatorMode b) (-1) (by norm_num) f (fun t v => by
    show ((f t v b 0 : ℝ) : ℂ) + (f t v b 1 : ℝ) * I = ((-1 : ℝ) : ℂ) * I * ((v b 0 : ℂ) + v b 1 * I)
    simp only [hfdef, hnn_oscillator_batch, Matrix.cons_val_zero, Matrix.cons_val_one]
    push_cast
    linear_combination (v b 1 : ℂ) * I_sq) args x h t0 t1 hh rest hd hsep hgap
  rw [hsol] at h1
  obtain rfl : sol = sol' := congrArg Prod.snd (Except.ok.inj h1)
  have := h3 k y hy
  rw [oscillatorMode_norm, oscillatorMode_norm, hq] at this
  rw [this]
  ring

/-- Non-vacuity of C134: a system of two components with the decaying mode `x₀ + x₁` (`λ = -3`) and a grid with gap `1/4`; the
oscillator of `C134_hnn_euler` is a case with `λ = -i`. -/
example : (∀ (t : ℝ) (v : ℝ × ℝ), (Complex.ofRealCLM.toLinearMap.comp (LinearMap.fst ℝ ℝ ℝ + LinearMap.snd ℝ ℝ ℝ))
      ((fun (_ : ℝ) (v : ℝ × ℝ) => (v.2 - v.1, -4 * v.2 - 2 * v.1)) t v) =
        (-3 : ℝ) * (Complex.ofRealCLM.toLinearMap.comp (LinearMap.fst ℝ ℝ ℝ + LinearMap.snd ℝ ℝ ℝ)) v) ∧
    Separated [(0 : ℝ), 1 / 4, 1 / 2] ∧ ∀ (k : ℕ) (t t' : ℝ), [(0 : ℝ), 1 / 4, 1 / 2][k]? = some t →
      [(0 : ℝ), 1 / 4, 1 / 2][k + 1]? = some t' → t' - t = 1 / 4 := by
  refine ⟨fun t v => ?_, ?_, ?_⟩
  · simp
    ring
  · unfold Separated Close
    simp
    norm_num [abs_le]
  · intro k t t' h1 h2
    match k with
    | 0 => simp at h1 h2; linarith
    | 1 => simp at h1 h2; linarith

end hnn

end Torchdyn
