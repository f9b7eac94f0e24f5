import Verif.Model.Steppers
import Verif.Spec.OneStep
import Verif.Proofs.Trees
import Mathlib.Algebra.Order.Ring.Rat
import Mathlib.Algebra.Order.BigOperators.Ring.Finset
import Mathlib.Tactic.Module
import Mathlib.Tactic.FieldSimp
import Mathlib.Tactic.NormNum
import Mathlib.Tactic.LinearCombination
import Mathlib.Tactic.Linarith
import Mathlib.Tactic.Positivity

/-!
Properties C01–C07, C10, C11 of single solver steps. Steps are run purely (`m := Id`), i.e. for an
arbitrary vector field `f : K → V → V` (no continuity is assumed).
-/

set_option linter.unusedSectionVars false
set_option linter.unusedSimpArgs false

namespace Torchdyn

open Spec

/-- Unfold a pure Runge-Kutta step completely. -/
macro "unfold_step" : tactic => `(tactic|
  simp only [eulerStep, midpointStep, rk4Step, dopri5Step, tsit5Step, rk7Step, hyperStep,
    hyperEulerStep, hyperMidpointStep, hyperRk4Step, alfStep, firstStage, pureField, bind, pure,
    StepOut.newState, StepOut.errEst, StepOut.deriv, constructRk4, constructDopri5, constructTsit5,
    nth, nth2, dopri5Bsol, dopri5Bhat, tsit5Bsol, tsit5Bhat, List.zipWith_cons_cons,
    List.getD_cons_zero, List.getD_cons_succ])

section general

variable {K V A : Type} [Field K] [CharZero K] [AddCommGroup V] [Module K V]

/-- **C01.** On `x' = L x` one `dopri5` step of size `h` returns the degree-5 Taylor polynomial of the
exponential plus `(hL)^6/600`. -/
theorem C01_dopri5_linear (L : V →ₗ[K] V) (x : V) (t h : K) (args : A) :
    (dopri5Step (m := Id) (pureField (fun _ y => L y)) x t h none args).newState =
      expTaylor 5 L h x + (h ^ 6 / 600) • (L ^ 6) x := by
  simp only [expTaylor, Finset.sum_range_succ, Finset.sum_range_zero, pow_succ, pow_zero, Module.End.mul_apply,
    Module.End.one_apply, Nat.factorial]
  unfold_step
  simp only [map_add, map_smul]
  push_cast
  module

/-- **C01.** On `x' = L x` the error estimate of `dopri5` is a multiple of `(hL)^5 x` plus higher
powers: `-97/180000 (hL)^5 + 13/60000 (hL)^6 - 1/36000 (hL)^7`. -/
theorem C01_dopri5_linear_error (L : V →ₗ[K] V) (x : V) (t h : K) (args : A) :
    (dopri5Step (m := Id) (pureField (fun _ y => L y)) x t h none args).errEst =
      some ((-97 / 180000 * h ^ 5) • (L ^ 5) x + (13 / 60000 * h ^ 6) • (L ^ 6) x
        - (1 / 36000 * h ^ 7) • (L ^ 7) x) := by
  simp only [pow_succ, pow_zero, Module.End.mul_apply, Module.End.one_apply]
  unfold_step
  simp only [map_add, map_smul]
  congr 1
  module

/-- Non-vacuity of C01: with `L = id` on `ℚ`, `h = 1`, the step from `1` gives `1957/720`-like
truncation of `e` plus `1/600`, a non-trivial number. -/
example : (dopri5Step (m := Id) (pureField (fun (_ : ℚ) (y : ℚ) => (LinearMap.id : ℚ →ₗ[ℚ] ℚ) y)) 1 0 1 none ()).newState
    = 163 / 60 + 1 / 600 := by
  rw [C01_dopri5_linear]
  simp [expTaylor, Finset.sum_range_succ, Nat.factorial]
  norm_num

/-- **C02.** `dopri5` returns as first component the vector field at the *new* time and state. -/
theorem C02_dopri5_fsal (f : K → V → V) (x : V) (t dt : K) (k1 : Option V) (args : A) :
    let out := dopri5Step (m := Id) (pureField f) x t dt k1 args
    out.deriv = some (f (t + dt) out.newState) := by
  cases k1 <;>
  · unfold_step
    congr 2
    · ring
    · module

/-- **C02.** The same for `tsit5`. -/
theorem C02_tsit5_fsal (f : K → V → V) (x : V) (t dt : K) (k1 : Option V) (args : A) :
    let out := tsit5Step (m := Id) (pureField f) x t dt k1 args
    out.deriv = some (f (t + dt) out.newState) := by
  cases k1 <;>
  · unfold_step
    congr 2
    · ring
    · module

/-- Non-vacuity of C02 (nonlinear, time dependent field): the returned derivative is a genuine
evaluation at the end point. -/
example : (dopri5Step (m := Id) (pureField (fun (t : ℚ) (_ : ℚ) => t ^ 2)) 0 1 2 none ()).deriv = some 9 := by
  rw [C02_dopri5_fsal]; norm_num

/-- **C03.** For `x' = p(t)`, `deg p ≤ 4`, one `dopri5` step adds the exact integral. -/
theorem C03_dopri5_poly (c : ℕ → V) (x : V) (t h : K) (args : A) :
    (dopri5Step (m := Id) (pureField (fun s _ => polyField 4 c s)) x t h none args).newState =
      x + polyIntegral 4 c t (t + h) := by
  simp only [polyField, polyIntegral, Finset.sum_range_succ, Finset.sum_range_zero]
  unfold_step
  push_cast
  module

/-- **C03.** For `deg p ≤ 3` the error estimate of `dopri5` vanishes identically. -/
theorem C03_dopri5_error_zero (c : ℕ → V) (x : V) (t h : K) (args : A) :
    (dopri5Step (m := Id) (pureField (fun s _ => polyField 3 c s)) x t h none args).errEst = some 0 := by
  simp only [polyField, Finset.sum_range_succ, Finset.sum_range_zero]
  unfold_step
  congr 1
  module

/-- Non-vacuity of C03: `x' = 5 t^4` from `t = 0` to `2` gives `32`. -/
example : (dopri5Step (m := Id) (pureField (fun (s _ : ℚ) => polyField 4 (fun j => if j = 4 then 5 else 0) s))
    0 0 2 none ()).newState = (32 : ℚ) := by
  rw [C03_dopri5_poly]
  simp [polyIntegral, Finset.sum_range_succ]; norm_num

/-- **C05 (partial: autonomous fields).** On an autonomous field, `rk4` is the classical Runge-Kutta
method. -/
theorem C05_rk4_autonomous_partial (F : V → V) (x : V) (t h : K) (args : A) :
    (rk4Step (m := Id) (constructRk4 K) (pureField (fun _ y => F y)) x t h none args).newState
      = classicalRk4 F h x := by
  unfold_step
  simp only [classicalRk4]
  have e2 : x + h • ((1 / 2 : K) • F x) = x + (h / 2) • F x := by module
  rw [e2]
  generalize F (x + (h / 2) • F x) = k2
  have e3 : x + h • ((0 : K) • F x + (1 / 2 : K) • k2) = x + (h / 2) • k2 := by module
  rw [e3]
  generalize F (x + (h / 2) • k2) = k3
  have e4 : x + h • ((0 : K) • F x + (0 : K) • k2 + (1 : K) • k3) = x + h • k3 := by module
  rw [e4]
  module

/-- **C05 (partial: autonomous linear fields).** On `x' = L x`, `rk4` returns the degree-4 Taylor
polynomial of the exponential. -/
theorem C05_rk4_linear_partial (L : V →ₗ[K] V) (x : V) (t h : K) (args : A) :
    (rk4Step (m := Id) (constructRk4 K) (pureField (fun _ y => L y)) x t h none args).newState
      = expTaylor 4 L h x := by
  simp only [expTaylor, Finset.sum_range_succ, Finset.sum_range_zero, pow_succ, pow_zero, Module.End.mul_apply,
    Module.End.one_apply, Nat.factorial]
  unfold_step
  simp only [map_add, map_smul]
  push_cast
  module

/-- **C05 (refuted for time-dependent fields).** The claim "`rk4` integrates `x' = p(t)` exactly for
`deg p ≤ 3`" is false: for `x' = t` (degree 1) the step over `[t, t+h]` is wrong for *every* `h ≠ 0`;
it misses `h²/4`. The stages use the nodes `c[0], c[1], c[2] = 0, 1/2, 1/2` instead of
`1/2, 1/2, 1`. -/
theorem C05_rk4_time_dependent_refuted (x t h : K) (hh : h ≠ 0) (args : A) :
    let c : ℕ → K := fun j => if j = 1 then 1 else 0
    (rk4Step (m := Id) (constructRk4 K) (pureField (fun s _ => polyField 3 c s)) x t h none args).newState
      ≠ x + polyIntegral 3 c t (t + h) := by
  intro c hc
  simp only [polyField, polyIntegral, Finset.sum_range_succ, Finset.sum_range_zero, c] at hc
  simp only [rk4Step, firstStage, pureField, bind, pure, StepOut.newState, constructRk4, nth, nth2,
    List.getD_cons_zero, List.getD_cons_succ, smul_eq_mul] at hc
  norm_num at hc
  have : h ^ 2 = 0 := by linear_combination (-4) * hc
  exact hh (pow_eq_zero_iff (by norm_num) |>.1 this)

/-- What `rk4` does on `x' = t`: it is short by exactly `h²/4`. -/
theorem C05_rk4_time_defect (x t h : K) (args : A) :
    (rk4Step (m := Id) (constructRk4 K) (pureField (fun s _ => s)) x t h none args).newState
      = x + ((t + h) ^ 2 - t ^ 2) / 2 - h ^ 2 / 4 := by
  unfold_step
  simp only [smul_eq_mul]
  ring

/-- Non-vacuity of C05: `rk4` on the rotation-like nonlinear field `y ↦ y²`. -/
example : (rk4Step (m := Id) (constructRk4 ℚ) (pureField (fun (_ : ℚ) (y : ℚ) => y ^ 2)) 1 0 1 none ()).newState
    = classicalRk4 (fun y : ℚ => y ^ 2) (1 : ℚ) 1 ∧ classicalRk4 (fun y : ℚ => y ^ 2) (1 : ℚ) 1 ≠ 1 := by
  refine ⟨C05_rk4_autonomous_partial _ _ _ _ _, ?_⟩
  norm_num [classicalRk4]

/-- **C06.** `euler` on a linear field: degree-1 Taylor polynomial of the exponential. -/
theorem C06_euler_linear (L : V →ₗ[K] V) (x : V) (t h : K) (args : A) :
    (eulerStep (m := Id) (pureField (fun _ y => L y)) x t h none args).newState = expTaylor 1 L h x := by
  simp only [expTaylor, Finset.sum_range_succ, Finset.sum_range_zero, pow_succ, pow_zero, Module.End.mul_apply,
    Module.End.one_apply, Nat.factorial]
  unfold_step
  push_cast
  module

/-- **C06.** `midpoint` on a linear field: degree-2 Taylor polynomial of the exponential. -/
theorem C06_midpoint_linear (L : V →ₗ[K] V) (x : V) (t h : K) (args : A) :
    (midpointStep (m := Id) (pureField (fun _ y => L y)) x t h none args).newState = expTaylor 2 L h x := by
  simp only [expTaylor, Finset.sum_range_succ, Finset.sum_range_zero, pow_succ, pow_zero, Module.End.mul_apply,
    Module.End.one_apply, Nat.factorial]
  unfold_step
  simp only [map_add, map_smul]
  push_cast
  module

/-- **C06.** `euler` is exact on constant fields. -/
theorem C06_euler_const (c : ℕ → V) (x : V) (t h : K) (args : A) :
    (eulerStep (m := Id) (pureField (fun s _ => polyField 0 c s)) x t h none args).newState
      = x + polyIntegral 0 c t (t + h) := by
  simp only [polyField, polyIntegral, Finset.sum_range_succ, Finset.sum_range_zero]
  unfold_step
  push_cast
  module

/-- **C06.** `midpoint` is exact on `x' = p(t)` with `deg p ≤ 1`. -/
theorem C06_midpoint_poly (c : ℕ → V) (x : V) (t h : K) (args : A) :
    (midpointStep (m := Id) (pureField (fun s _ => polyField 1 c s)) x t h none args).newState
      = x + polyIntegral 1 c t (t + h) := by
  simp only [polyField, polyIntegral, Finset.sum_range_succ, Finset.sum_range_zero]
  unfold_step
  push_cast
  module

/-- **C06.** What the two steps are for an arbitrary field (Euler's and the explicit midpoint
formula). -/
theorem C06_formulas (f : K → V → V) (x : V) (t h : K) (args : A) :
    eulerStep (m := Id) (pureField f) x t h none args = .three none (x + h • f t x) none ∧
    midpointStep (m := Id) (pureField f) x t h none args =
      .three none (x + h • f (t + h / 2) (x + (h / 2) • f t x)) none := by
  refine ⟨rfl, ?_⟩
  unfold_step
  have e1 : (1 / 2 : K) * h = h / 2 := by ring
  simp only [e1]

/-- **C07.** Supplying `k1 = f t x` gives the same step as computing it, for every explicit
solver. -/
theorem C07_k1_transparent (f g : K → V → V) (tab : Tableau K) (x : V) (t dt : K) (args : A)
    (xv : V × V) (ad : Bool) :
    eulerStep (m := Id) (pureField f) x t dt (some (f t x)) args = eulerStep (m := Id) (pureField f) x t dt none args ∧
    midpointStep (m := Id) (pureField f) x t dt (some (f t x)) args = midpointStep (m := Id) (pureField f) x t dt none args ∧
    rk4Step (m := Id) tab (pureField f) x t dt (some (f t x)) args = rk4Step (m := Id) tab (pureField f) x t dt none args ∧
    dopri5Step (m := Id) (pureField f) x t dt (some (f t x)) args = dopri5Step (m := Id) (pureField f) x t dt none args ∧
    tsit5Step (m := Id) (pureField f) x t dt (some (f t x)) args = tsit5Step (m := Id) (pureField f) x t dt none args ∧
    alfStep (m := Id) ad (pureField f) xv t dt (some (f t xv.1)) args = alfStep (m := Id) ad (pureField f) xv t dt none args ∧
    hyperEulerStep (m := Id) (pureField g) (pureField f) x t dt (some (f t x)) args = hyperEulerStep (m := Id) (pureField g) (pureField f) x t dt none args ∧
    hyperMidpointStep (m := Id) (pureField g) (pureField f) x t dt (some (f t x)) args
      = hyperMidpointStep (m := Id) (pureField g) (pureField f) x t dt none args ∧
    hyperRk4Step (m := Id) (pureField g) (pureField f) x t dt (some (f t x)) args = hyperRk4Step (m := Id) (pureField g) (pureField f) x t dt none args :=
  ⟨rfl, rfl, rfl, rfl, rfl, rfl, rfl, rfl, rfl⟩

/-- Non-vacuity of C07: a wrong `k1` does change the step, so the equality is not trivial. -/
example : (eulerStep (m := Id) (pureField (fun (_ : ℚ) (y : ℚ) => y)) 1 0 1 (some 5) ()).newState
    ≠ (eulerStep (m := Id) (pureField (fun (_ : ℚ) (y : ℚ) => y)) 1 0 1 none ()).newState := by
  simp only [eulerStep, firstStage, pureField, bind, pure, StepOut.newState, smul_eq_mul]; norm_num

/-- **C10.** A hypersolver step is the base step plus `dt^(order+1)` times the hypernet at the old
point. -/
theorem C10_hyper_residual (f g : K → V → V) (x : V) (t dt : K) (k1 : Option V) (args : A) :
    (hyperEulerStep (m := Id) (pureField g) (pureField f) x t dt k1 args).newState
      = (eulerStep (m := Id) (pureField f) x t dt k1 args).newState + dt ^ 2 • g t x ∧
    (hyperMidpointStep (m := Id) (pureField g) (pureField f) x t dt k1 args).newState
      = (midpointStep (m := Id) (pureField f) x t dt k1 args).newState + dt ^ 3 • g t x ∧
    (hyperRk4Step (m := Id) (pureField g) (pureField f) x t dt k1 args).newState
      = (rk4Step (m := Id) (constructRk4 K) (pureField f) x t dt k1 args).newState + dt ^ 5 • g t x :=
  ⟨rfl, rfl, rfl⟩

/-- **C10.** With the zero hypernet the hypersolvers are their base solvers. -/
theorem C10_hyper_zero (f : K → V → V) (x : V) (t dt : K) (k1 : Option V) (args : A) :
    hyperEulerStep (m := Id) (pureField (fun _ _ => 0)) (pureField f) x t dt k1 args = eulerStep (m := Id) (pureField f) x t dt k1 args ∧
    hyperMidpointStep (m := Id) (pureField (fun _ _ => 0)) (pureField f) x t dt k1 args
      = midpointStep (m := Id) (pureField f) x t dt k1 args ∧
    hyperRk4Step (m := Id) (pureField (fun _ _ => 0)) (pureField f) x t dt k1 args
      = rk4Step (m := Id) (constructRk4 K) (pureField f) x t dt k1 args := by
  refine ⟨?_, ?_, ?_⟩ <;>
  · unfold_step
    simp only [smul_zero, add_zero]

/-- **C10.** If the hypernet returns the scaled residual of the base solver with respect to a target
`y`, the hypersolver step is exactly `y` (any `dt ≠ 0`). -/
theorem C10_hyper_exact (f : K → V → V) (x y : V) (t dt : K) (k1 : Option V) (args : A)
    (hdt : dt ≠ 0) :
    (hyperEulerStep (m := Id)
      (pureField fun _ _ => (dt ^ 2)⁻¹ • (y - (eulerStep (m := Id) (pureField f) x t dt k1 args).newState))
      (pureField f) x t dt k1 args).newState = y ∧
    (hyperMidpointStep (m := Id)
      (pureField fun _ _ =>
        (dt ^ 3)⁻¹ • (y - (midpointStep (m := Id) (pureField f) x t dt k1 args).newState))
      (pureField f) x t dt k1 args).newState = y ∧
    (hyperRk4Step (m := Id)
      (pureField fun _ _ => (dt ^ 5)⁻¹ •
        (y - (rk4Step (m := Id) (constructRk4 K) (pureField f) x t dt k1 args).newState))
      (pureField f) x t dt k1 args).newState = y := by
  have p2 : dt ^ 2 ≠ 0 := pow_ne_zero _ hdt
  have p3 : dt ^ 3 ≠ 0 := pow_ne_zero _ hdt
  have p5 : dt ^ 5 ≠ 0 := pow_ne_zero _ hdt
  refine ⟨?_, ?_, ?_⟩
  · rw [(C10_hyper_residual _ _ _ _ _ _ _).1, smul_smul, mul_inv_cancel₀ p2, one_smul, add_sub_cancel]
  · rw [(C10_hyper_residual _ _ _ _ _ _ _).2.1, smul_smul, mul_inv_cancel₀ p3, one_smul, add_sub_cancel]
  · rw [(C10_hyper_residual _ _ _ _ _ _ _).2.2, smul_smul, mul_inv_cancel₀ p5, one_smul, add_sub_cancel]

/-- Non-vacuity of C10: `HyperEuler` on `x' = x` with the exact second-order residual `x/2`. -/
example : (hyperEulerStep (m := Id) (pureField fun (_ : ℚ) (y : ℚ) => y / 2) (pureField fun (_ : ℚ) (y : ℚ) => y)
    1 0 1 none ()).newState
    = 5 / 2 := by
  rw [(C10_hyper_residual _ _ _ _ _ _ _).1, (C06_formulas _ _ _ _ _).1]
  simp only [StepOut.newState, smul_eq_mul]; norm_num

end general

/-! ### Order conditions -/

/-- The full Runge-Kutta matrix of a tableau of the code: the first stage has an empty row. -/
def butcherRows {K : Type} (tab : Tableau K) : List (List K) := [] :: tab.a

/-- **C03.** All order conditions up to order 5 (over *all* rooted trees with at most five vertices)
hold for the `dopri5` weights. -/
theorem C03_dopri5_order_conditions :
    ∀ τ : RTree, τ.order ≤ 5 →
      orderDefect (butcherRows (constructDopri5 ℚ)) (constructDopri5 ℚ).bsol τ = 0 :=
  forall_trees 4 _ (by decide +kernel)

/-- **C03.** All order conditions up to order 4 hold for the embedded weights (`bsol` minus the
returned error weights). -/
theorem C03_dopri5_embedded_order_conditions :
    ∀ τ : RTree, τ.order ≤ 4 →
      orderDefect (butcherRows (constructDopri5 ℚ))
        (List.zipWith (· - ·) (constructDopri5 ℚ).bsol (constructDopri5 ℚ).berr) τ = 0 :=
  forall_trees 3 _ (by decide +kernel)

/-- **C03.** The stage times are consistent: `c_i` is the sum of row `i`. -/
theorem C03_dopri5_row_sums :
    (constructDopri5 ℚ).c = (constructDopri5 ℚ).a.map List.sum := by decide +kernel

/-- **C04.** The order conditions up to order 5 hold for the `tsit5` weights up to `1e-80`. -/
theorem C04_tsit5_order_conditions :
    ∀ τ : RTree, τ.order ≤ 5 →
      |orderDefect (butcherRows (constructTsit5 ℚ)) (constructTsit5 ℚ).bsol τ| ≤ 1 / 10 ^ 80 :=
  forall_trees 4 _ (by decide +kernel)

/-- **C04.** The order conditions up to order 4 hold for the embedded `tsit5` weights up to `1e-80`. -/
theorem C04_tsit5_embedded_order_conditions :
    ∀ τ : RTree, τ.order ≤ 4 →
      |orderDefect (butcherRows (constructTsit5 ℚ))
        (List.zipWith (· - ·) (constructTsit5 ℚ).bsol (constructTsit5 ℚ).berr) τ| ≤ 1 / 10 ^ 80 :=
  forall_trees 3 _ (by decide +kernel)

/-- **C04.** Row sums of `tsit5` agree with its nodes up to `1e-80`. -/
theorem C04_tsit5_row_sums :
    (constructTsit5 ℚ).c.length = (constructTsit5 ℚ).a.length ∧
    ∀ p ∈ (constructTsit5 ℚ).c.zip (constructTsit5 ℚ).a, |p.1 - p.2.sum| ≤ 1 / 10 ^ 80 := by
  decide +kernel

/-- **C05 (partial).** The `rk4` matrix and weights satisfy all order conditions up to order 4 (what is
wrong in the code are the node indices, see `C05_rk4_time_dependent_refuted`). -/
theorem C05_rk4_order_conditions_partial :
    ∀ τ : RTree, τ.order ≤ 4 →
      orderDefect (butcherRows (constructRk4 ℚ)) (constructRk4 ℚ).bsol τ = 0 :=
  forall_trees 3 _ (by decide +kernel)

/-- Non-vacuity: the tall tree with five vertices is covered, and its order-6 analogue fails for
`dopri5`, so the conditions are sharp. -/
example : (RTree.node [.node [.node [.node [.node []]]]]).order = 5 ∧
    orderDefect (butcherRows (constructDopri5 ℚ)) (constructDopri5 ℚ).bsol
      (.node [.node [.node [.node [.node [.node []]]]]]) ≠ 0 := by decide +kernel

section ordered

variable {K V A : Type} [Field K] [LinearOrder K] [IsStrictOrderedRing K] [AddCommGroup V] [Module K V]

/-- **C04.** On a constant field `v`, a `tsit5` step moves the state by `dt*(1+δ)*v` with
`|δ| ≤ 1e-80`. -/
theorem C04_tsit5_const (v x : V) (t dt : K) (args : A) :
    ∃ δ : K, |δ| ≤ 1 / 10 ^ 80 ∧
      (tsit5Step (m := Id) (pureField (fun _ _ => v)) x t dt none args).newState = x + (dt * (1 + δ)) • v := by
  refine ⟨(tsit5Bsol K).sum - 1, ?_, ?_⟩
  · simp only [tsit5Bsol, List.sum_cons, List.sum_nil]
    rw [abs_le]
    constructor <;> norm_num
  · unfold_step
    simp only [List.sum_cons, List.sum_nil]
    module

/-- Non-vacuity of C04. -/
example : ∃ δ : ℚ, |δ| ≤ 1 / 10 ^ 80 ∧
    (tsit5Step (m := Id) (pureField (fun (_ : ℚ) (_ : ℚ) => (7 : ℚ))) 1 0 2 none ()).newState = 1 + (2 * (1 + δ)) • 7 :=
  C04_tsit5_const 7 1 0 2 ()

/-! ### Implicit Euler -/

/-- **C11 (partial: the field is frozen at the old time `t`).** If the inner minimiser reaches zero
residual then the new state satisfies the backward Euler equation with the field at time `t`. -/
theorem C11_implicit_euler_partial {ι : Type} [Fintype ι]
    (minimise : ((ι → K) → K) → (ι → K) → (ι → K)) (f : K → (ι → K) → (ι → K)) (x : ι → K)
    (t dt : K) (k1 : Option (ι → K)) (args : A)
    (hmin : implicitEulerResidual f x t dt (minimise (implicitEulerResidual f x t dt) x) = 0) :
    let y := (implicitEulerStep minimise f x t dt k1 args).newState
    y = x + dt • f t y := by
  intro y
  have hy : implicitEulerResidual f x t dt y = 0 := hmin
  have h0 : ∀ i, implicitEulerDefect f x t dt y i = 0 := by
    intro i
    have := (Finset.sum_eq_zero_iff_of_nonneg (fun i _ => sq_nonneg _)).1 hy i (Finset.mem_univ i)
    exact pow_eq_zero_iff (by norm_num) |>.1 this
  funext i
  have := h0 i
  simp only [implicitEulerDefect, Pi.sub_apply, Pi.smul_apply, smul_eq_mul] at this
  simp only [Pi.add_apply, Pi.smul_apply, smul_eq_mul]
  linarith

/-- **C11.** Consequence (autonomous or not): if the field is dissipative at time `t`
(`⟨f(t,y), y⟩ ≤ 0` for all `y`) and `dt ≥ 0`, an implicit Euler step with zero residual never
increases the squared norm of the state, whatever the step size. -/
theorem C11_implicit_euler_dissipative {ι : Type} [Fintype ι]
    (minimise : ((ι → K) → K) → (ι → K) → (ι → K)) (f : K → (ι → K) → (ι → K)) (x : ι → K)
    (t dt : K) (k1 : Option (ι → K)) (args : A)
    (hmin : implicitEulerResidual f x t dt (minimise (implicitEulerResidual f x t dt) x) = 0)
    (hdt : 0 ≤ dt) (hdiss : ∀ y, ∑ i, f t y i * y i ≤ 0) :
    let y := (implicitEulerStep minimise f x t dt k1 args).newState
    ∑ i, y i ^ 2 ≤ ∑ i, x i ^ 2 := by
  intro y
  have hy : y = x + dt • f t y := C11_implicit_euler_partial minimise f x t dt k1 args hmin
  have hx : ∀ i, x i = y i - dt * f t y i := by
    intro i
    have := congrFun hy i
    simp only [Pi.add_apply, Pi.smul_apply, smul_eq_mul] at this
    linarith
  have key : ∑ i, x i ^ 2 = ∑ i, y i ^ 2 + (dt ^ 2 * ∑ i, f t y i ^ 2 - 2 * dt * ∑ i, f t y i * y i) := by
    rw [Finset.mul_sum, Finset.mul_sum, ← Finset.sum_sub_distrib, ← Finset.sum_add_distrib]
    refine Finset.sum_congr rfl (fun i _ => ?_)
    rw [hx i]; ring
  have h1 : 0 ≤ dt ^ 2 * ∑ i, f t y i ^ 2 :=
    mul_nonneg (sq_nonneg _) (Finset.sum_nonneg (fun i _ => sq_nonneg _))
  have h2 : dt * ∑ i, f t y i * y i ≤ 0 := mul_nonpos_of_nonneg_of_nonpos hdt (hdiss y)
  rw [key]; linarith

/-- **C11 (refuted as stated).** Backward Euler should evaluate the field at the *new* time. For
`f(t,x) = t` the step of the code, with a perfect minimiser, violates
`y = x + dt f(t+dt, y)` for every `dt ≠ 0`. -/
theorem C11_implicit_euler_new_time_refuted (x t dt : K) (hdt : dt ≠ 0) (args : A) :
    let f : K → (Unit → K) → (Unit → K) := fun s _ _ => s
    let minimise : ((Unit → K) → K) → (Unit → K) → (Unit → K) := fun _ _ _ => x + dt * t
    let x0 : Unit → K := fun _ => x
    implicitEulerResidual f x0 t dt (minimise (implicitEulerResidual f x0 t dt) x0) = 0 ∧
    let y := (implicitEulerStep minimise f x0 t dt none args).newState
    y ≠ x0 + dt • f (t + dt) y := by
  intro f minimise x0
  refine ⟨?_, ?_⟩
  · simp [implicitEulerResidual, implicitEulerDefect, f, minimise, x0]
  · intro y hy
    have := congrFun hy ()
    simp only [y, implicitEulerStep, StepOut.newState, minimise, x0, f, Pi.add_apply, Pi.smul_apply,
      smul_eq_mul] at this
    have h2 : dt * dt = 0 := by linear_combination -this
    exact hdt (mul_self_eq_zero.1 h2)

/-- Non-vacuity of C11: decay `x' = -x`, `dt = 1`, `x = 1`; the exact minimiser is `1/2`. -/
example : implicitEulerResidual (fun (_ : ℚ) (y : Unit → ℚ) i => - y i) (fun _ => 1) 0 1
    (fun _ => 1 / 2) = 0 ∧ ∀ y : Unit → ℚ, ∑ i, (- y i) * y i ≤ 0 := by
  refine ⟨?_, fun y => ?_⟩
  · simp [implicitEulerResidual, implicitEulerDefect]; norm_num
  · simp only [Finset.univ_unique, Finset.sum_singleton]
    nlinarith [sq_nonneg (y default)]

end ordered

end Torchdyn
