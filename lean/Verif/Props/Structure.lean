import Verif.Model.Steppers
import Mathlib.Algebra.Module.LinearMap.Basic
import Mathlib.LinearAlgebra.Prod
import Mathlib.Algebra.Order.Ring.Rat
import Mathlib.Tactic.Module
import Mathlib.Tactic.FieldSimp
import Mathlib.Tactic.NormNum

/-!
Properties C08 (equivariance of steps) and C09 (reversibility of the asynchronous leapfrog).
-/

set_option linter.unusedSectionVars false
set_option linter.unusedSimpArgs false

namespace Torchdyn

/-- Apply a map to every tensor in the tuple returned by a step. -/
def StepOut.map {V W : Type} (φ : V → W) : StepOut V → StepOut W
  | .three k x e => .three (k.map φ) (φ x) (e.map φ)
  | .four k x e s => .four (φ k) (φ x) (φ e) (s.map φ)

section equivariance

variable {K V W A : Type} [Field K] [AddCommGroup V] [Module K V] [AddCommGroup W] [Module K W]

/-- **C08.** If the linear map `φ` intertwines the fields `f` and `g`, it intertwines the steps of
every explicit solver (all returned tensors), for every tableau and with or without a supplied
first stage. -/
theorem C08_step_equivariant (φ : V →ₗ[K] W) (f : K → V → V) (g : K → W → W)
    (h : ∀ t x, φ (f t x) = g t (φ x)) (tab : Tableau K) (x : V) (t dt : K) (k1 : Option V)
    (args : A) :
    (eulerStep (m := Id) (pureField f) x t dt k1 args).map φ
      = eulerStep (m := Id) (pureField g) (φ x) t dt (k1.map φ) args ∧
    (midpointStep (m := Id) (pureField f) x t dt k1 args).map φ
      = midpointStep (m := Id) (pureField g) (φ x) t dt (k1.map φ) args ∧
    (rk4Step (m := Id) tab (pureField f) x t dt k1 args).map φ
      = rk4Step (m := Id) tab (pureField g) (φ x) t dt (k1.map φ) args ∧
    (rk7Step (m := Id) tab (pureField f) x t dt k1 args).map φ
      = rk7Step (m := Id) tab (pureField g) (φ x) t dt (k1.map φ) args := by
  cases k1 <;>
  · refine ⟨?_, ?_, ?_, ?_⟩ <;>
    simp only [eulerStep, midpointStep, rk4Step, rk7Step, firstStage, pureField, bind, pure,
      StepOut.map, Option.map, map_add, map_smul, h, List.map]

/-- **C08.** The same for `dopri5` and `tsit5`. -/
theorem C08_adaptive_step_equivariant (φ : V →ₗ[K] W) (f : K → V → V) (g : K → W → W)
    (h : ∀ t x, φ (f t x) = g t (φ x)) (x : V) (t dt : K) (k1 : Option V) (args : A) :
    (dopri5Step (m := Id) (pureField f) x t dt k1 args).map φ
      = dopri5Step (m := Id) (pureField g) (φ x) t dt (k1.map φ) args ∧
    (tsit5Step (m := Id) (pureField f) x t dt k1 args).map φ
      = tsit5Step (m := Id) (pureField g) (φ x) t dt (k1.map φ) args :=
  ⟨(C08_step_equivariant φ f g h _ x t dt k1 args).2.2.2,
   (C08_step_equivariant φ f g h _ x t dt k1 args).2.2.2⟩

/-- Non-vacuity of C08: the projection of a coupled-in-the-second-component field on its first
component. -/
example : let f : ℚ → ℚ × ℚ → ℚ × ℚ := fun t x => (t * x.1, x.1 + x.2)
    let g : ℚ → ℚ → ℚ := fun t y => t * y
    (∀ t x, LinearMap.fst ℚ ℚ ℚ (f t x) = g t (LinearMap.fst ℚ ℚ ℚ x)) := by
  intro f g t x; rfl

/-- **C08.** Time translation: shifting the field in time is the same as shifting the time at which
the step is taken. In particular steps of autonomous fields do not depend on `t`. -/
theorem C08_time_shift (f : K → V → V) (s : K) (tab : Tableau K) (x : V) (t dt : K)
    (k1 : Option V) (args : A) :
    eulerStep (m := Id) (pureField fun u y => f (u + s) y) x t dt k1 args
      = eulerStep (m := Id) (pureField f) x (t + s) dt k1 args ∧
    midpointStep (m := Id) (pureField fun u y => f (u + s) y) x t dt k1 args
      = midpointStep (m := Id) (pureField f) x (t + s) dt k1 args ∧
    rk4Step (m := Id) tab (pureField fun u y => f (u + s) y) x t dt k1 args
      = rk4Step (m := Id) tab (pureField f) x (t + s) dt k1 args ∧
    rk7Step (m := Id) tab (pureField fun u y => f (u + s) y) x t dt k1 args
      = rk7Step (m := Id) tab (pureField f) x (t + s) dt k1 args := by
  have ht : ∀ c : K, t + c * dt + s = t + s + c * dt := fun c => add_right_comm _ _ _
  cases k1 <;>
  · refine ⟨?_, ?_, ?_, ?_⟩ <;>
    simp only [eulerStep, midpointStep, rk4Step, rk7Step, firstStage, pureField, bind, pure, ht]

/-- **C08.** Time reversal of a single step: a step of `-f(-t,x)` from time `-t` with `dt` is the step
of `f` from time `t` with `-dt` (new state; explicit solvers with any tableau). This is what makes the
reversed-time branch of `odeint` integrate backwards. -/
theorem C08_time_reversal (f : K → V → V) (tab : Tableau K) (x : V) (t dt : K) (args : A) :
    (eulerStep (m := Id) (pureField fun u y => -f (-u) y) x (-t) dt none args).newState
      = (eulerStep (m := Id) (pureField f) x t (-dt) none args).newState ∧
    (midpointStep (m := Id) (pureField fun u y => -f (-u) y) x (-t) dt none args).newState
      = (midpointStep (m := Id) (pureField f) x t (-dt) none args).newState ∧
    (rk4Step (m := Id) tab (pureField fun u y => -f (-u) y) x (-t) dt none args).newState
      = (rk4Step (m := Id) tab (pureField f) x t (-dt) none args).newState ∧
    (rk7Step (m := Id) tab (pureField fun u y => -f (-u) y) x (-t) dt none args).newState
      = (rk7Step (m := Id) tab (pureField f) x t (-dt) none args).newState := by
  refine ⟨?_, ?_, ?_, ?_⟩ <;>
    simp only [eulerStep, midpointStep, rk4Step, rk7Step, firstStage, pureField, bind, pure,
      StepOut.newState, neg_neg, smul_neg, neg_smul, smul_add, neg_add, mul_neg, neg_mul]

end equivariance

section leapfrog

variable {K V A : Type} [Field K] [CharZero K] [AddCommGroup V] [Module K V]

/-- **C09.** The asynchronous leapfrog step is undone by the step with `-dt` taken from the end
point. -/
theorem C09_alf_reversible (f : K → V → V) (xv : V × V) (t dt : K) (args : A) :
    let out := (alfStep (m := Id) false (pureField f) xv t dt none args).newState
    (alfStep (m := Id) false (pureField f) out (t + dt) (-dt) none args).newState = xv := by
  obtain ⟨x, v⟩ := xv
  simp only [alfStep, firstStage, pureField, bind, pure, StepOut.newState]
  have ht : t + dt + 1 / 2 * -dt = t + 1 / 2 * dt := by ring
  rw [ht]
  generalize hw : f (t + 1 / 2 * dt) (x + (1 / 2 * dt) • v) = w
  have hx : x + (1 / 2 * dt) • v + (1 / 2 * dt) • ((2 * 1 : K) • (w - v) + v)
      + (1 / 2 * -dt) • ((2 * 1 : K) • (w - v) + v) = x + (1 / 2 * dt) • v := by module
  rw [hx, hw]
  refine Prod.ext ?_ ?_
  · simp only; module
  · simp only; module

/-- **C09.** The same with the mirrored field used by reversed-time integration: from the end point
with negated velocity, a step of `-f(-t,x)` at time `-(t+dt)` returns to `(x, -v)`. -/
theorem C09_alf_mirror (f : K → V → V) (xv : V × V) (t dt : K) (args : A) :
    let out := (alfStep (m := Id) false (pureField f) xv t dt none args).newState
    (alfStep (m := Id) false (pureField fun u y => -f (-u) y) (out.1, -out.2) (-(t + dt)) dt none
      args).newState = (xv.1, -xv.2) := by
  obtain ⟨x, v⟩ := xv
  simp only [alfStep, firstStage, pureField, bind, pure, StepOut.newState]
  have ht : -(-(t + dt) + 1 / 2 * dt) = t + 1 / 2 * dt := by ring
  rw [ht]
  generalize hw : f (t + 1 / 2 * dt) (x + (1 / 2 * dt) • v) = w
  have hx : x + (1 / 2 * dt) • v + (1 / 2 * dt) • ((2 * 1 : K) • (w - v) + v)
      + (1 / 2 * dt) • -((2 * 1 : K) • (w - v) + v) = x + (1 / 2 * dt) • v := by module
  rw [hx, hw]
  refine Prod.ext ?_ ?_
  · simp only; module
  · simp only; module

/-- **C09.** What an asynchronous leapfrog step computes: half drift, velocity reflection about the
field at the midpoint, half drift. The error estimate is `(0, v)` for the adaptive variant. -/
theorem C09_alf_formula (ad : Bool) (f : K → V → V) (x v : V) (t dt : K) (k1 : Option V)
    (args : A) :
    let xm := x + (dt / 2) • v
    let v' := (2 : K) • f (t + dt / 2) xm - v
    alfStep (m := Id) ad (pureField f) (x, v) t dt k1 args =
      .three none (xm + (dt / 2) • v', v') (if ad then some (0, v) else none) := by
  have e1 : (1 / 2 : K) * dt = dt / 2 := by ring
  cases k1 <;>
  · simp only [alfStep, firstStage, pureField, bind, pure, e1]
    have e2 : ∀ w : V, (2 * 1 : K) • (w - v) + v = (2 : K) • w - v := fun w => by module
    simp only [e2]

/-- Non-vacuity of C09: a nonlinear field whose step really moves the state. -/
example : (alfStep (m := Id) false (pureField fun (t : ℚ) (y : ℚ) => t + y ^ 2) (1, 1) 0 2 none ()).newState
    = (11, 9) := by
  rw [C09_alf_formula]; simp only [StepOut.newState, smul_eq_mul]; norm_num

end leapfrog

end Torchdyn
