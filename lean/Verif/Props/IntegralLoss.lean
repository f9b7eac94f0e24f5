import Verif.Props.FixedStep
import Verif.Props.DEFunc
import Verif.Model.Controller
import Mathlib.LinearAlgebra.Pi

/-!
C53: the loss channel of a `NeuralODE` with an integral loss under `autograd`.

States of width `w` are `Fin w → C`; the augmented state is `Fin (w + 1) → C`, column `0` being the loss.
-/

set_option linter.unusedSimpArgs false
set_option linter.unusedSectionVars false

namespace Torchdyn

open Spec

/-- Dropping the first column, `x[:, 1:]`. -/
def dropFirst {K C : Type} [Semiring K] [AddCommMonoid C] [Module K C] (w : Nat) :
    (Fin (w + 1) → C) →ₗ[K] (Fin w → C) :=
  LinearMap.funLeft K C Fin.succ

section

variable {K C A : Type}

/-- What the user supplies: on states of width `w`, the field object `vf` evaluates to `f` (both ways of being
called: the branch with a loss calls `vf(t, x)`, the branch without calls `vf(t, x, args={})`), and the integral
loss evaluates to the vector `l`. The field object is a module, as it is after standardization. -/
structure LossSetting (empty : A) (vf : Obj K C A) (loss : K → List C → Except PyErr (LossOut C)) (w : Nat)
    (f : K → (Fin w → C) → (Fin w → C)) (l : K → (Fin w → C) → C) : Prop where
  isModule : vf.isModule = true
  field : ∀ t x, ((vf.setTime t).call empty (.tx t (List.ofFn x))).2 = .ok (List.ofFn (f t x))
  fieldArgs : ∀ t x, ((vf.setTime t).call empty (.txArgs t (List.ofFn x) empty)).2 = .ok (List.ofFn (f t x))
  loss : ∀ t x, loss t (List.ofFn x) = .ok (.vec (l t x))

theorem Obj.field_of_ok {empty : A} {o : Obj K C A} {w : Nat} {t : K} {x y : Fin w → C}
    (h : (o.call empty (.tx t (List.ofFn x))).2 = .ok (List.ofFn y)) : o.field empty w t x = .ok y := by
  unfold Obj.field
  rw [h]
  simp only
  rw [dif_pos (by simp)]
  congr 1
  funext i
  simp only [List.get_eq_getElem, List.getElem_ofFn]
  rfl

/-- The field of the standardized object with the loss: loss first, then the field, both evaluated at `x[:, 1:]`;
column `0` of the state is not used. -/
theorem loss_field {empty : A} {vf : Obj K C A} {loss : K → List C → Except PyErr (LossOut C)} {w : Nat}
    {f : K → (Fin w → C) → (Fin w → C)} {l : K → (Fin w → C) → C} (h : LossSetting empty vf loss w f l)
    (n : Nat) (t : K) (z : Fin (w + 1) → C) :
    (Obj.defunc vf 1 (some loss) (some "autograd") n).field empty (w + 1) t z =
      .ok (Fin.cons (l t (fun i => z i.succ)) (f t (fun i => z i.succ))) := by
  have hd : (List.ofFn z).drop 1 = List.ofFn (fun i => z i.succ) := by
    rw [List.ofFn_succ]
    rfl
  apply Obj.field_of_ok
  have hf := h.field t (fun i => z i.succ)
  rw [Obj.call, ← Obj.callAt_some] at hf
  simp only [Obj.call, Obj.callAt, FieldCall.unpack, pure, Except.pure, if_true, hd, h.loss, h.isModule, Bool.true_eq_false, if_false,
    if_neg (show ¬ 1 < 1 by omega), hf, Except.map, LossOut.cols, List.singleton_append]
  rw [List.ofFn_succ]
  simp only [Fin.cons_zero, Fin.cons_succ]

/-- The field of the standardized object without a loss. -/
theorem plain_field {empty : A} {vf : Obj K C A} {loss : K → List C → Except PyErr (LossOut C)} {w : Nat}
    {f : K → (Fin w → C) → (Fin w → C)} {l : K → (Fin w → C) → C} (h : LossSetting empty vf loss w f l)
    (s : Option String) (n : Nat) (t : K) (x : Fin w → C) :
    (Obj.defunc vf 1 none s n).field empty w t x = .ok (f t x) := by
  apply Obj.field_of_ok
  have hf := h.fieldArgs t x
  rw [Obj.call, ← Obj.callAt_some] at hf
  have hl : (if s = some "autograd" then (none : Option (K → List C → Except PyErr (LossOut C))) else none) =
      none := by split <;> rfl
  simp only [Obj.call, Obj.callAt, FieldCall.unpack, pure, Except.pure, hl, h.isModule, Bool.true_eq_false, if_false,
    if_neg (show ¬ 1 < 1 by omega), hf]

end

section

variable {K C A B : Type} [Field K] [LinearOrder K] [IsStrictOrderedRing K] [AddCommGroup C] [Module K C]

/-- **C53**, the dynamics do not see the loss: for `euler`, `midpoint` and `rk4`, every grid in either direction and
every `save_at`, dropping the first column of the run with an integral loss gives the run without — times, states
and exceptions — whatever the initial value of the loss column. -/
theorem C53_dynamics_partial {empty : A} {vf : Obj K C A} {loss : K → List C → Except PyErr (LossOut C)} {w : Nat}
    {f : K → (Fin w → C) → (Fin w → C)} {l : K → (Fin w → C) → C} (h : LossSetting empty vf loss w f l)
    (n n' : Nat) (s : Option String) (args : B) (z : Fin (w + 1) → C) (tSpan saveAt : List K) :
    ((odeintFixed ((Obj.defunc vf 1 (some loss) (some "autograd") n).field empty (w + 1)) z tSpan
        (eulerSolver (Except PyErr) K _ B) saveAt args).map (fun r => (r.1, r.2.map (fun y i => y i.succ))) =
      odeintFixed ((Obj.defunc vf 1 none s n').field empty w) (fun i => z i.succ) tSpan
        (eulerSolver (Except PyErr) K _ B) saveAt args) ∧
    ((odeintFixed ((Obj.defunc vf 1 (some loss) (some "autograd") n).field empty (w + 1)) z tSpan
        (midpointSolver (Except PyErr) K _ B) saveAt args).map (fun r => (r.1, r.2.map (fun y i => y i.succ))) =
      odeintFixed ((Obj.defunc vf 1 none s n').field empty w) (fun i => z i.succ) tSpan
        (midpointSolver (Except PyErr) K _ B) saveAt args) ∧
    ((odeintFixed ((Obj.defunc vf 1 (some loss) (some "autograd") n).field empty (w + 1)) z tSpan
        (rk4Solver (Except PyErr) K _ B) saveAt args).map (fun r => (r.1, r.2.map (fun y i => y i.succ))) =
      odeintFixed ((Obj.defunc vf 1 none s n').field empty w) (fun i => z i.succ) tSpan
        (rk4Solver (Except PyErr) K _ B) saveAt args) := by
  have e1 : (Obj.defunc vf 1 (some loss) (some "autograd") n).field empty (w + 1) =
      pureField (fun t z => (Fin.cons (l t (fun i => z i.succ)) (f t (fun i => z i.succ)) : Fin (w + 1) → C)) := by
    funext t z
    exact loss_field h n t z
  have e2 : (Obj.defunc vf 1 none s n').field empty w = pureField f := by
    funext t x
    exact plain_field h s n' t x
  rw [e1, e2]
  exact C19_equivariant (dropFirst (K := K) w) (fun t z => (Fin.cons (l t (fun i => z i.succ))
    (f t (fun i => z i.succ)) : Fin (w + 1) → C)) f (fun t x => rfl) args z tSpan saveAt

/-- The first column of the states of the run is an accumulated quadrature `Q` along the other columns. -/
def FirstColumnIs {w : Nat} (Q : (Fin w → C) → K → K → C) (ts : List K) (sol : List (Fin (w + 1) → C)) : Prop :=
  ∀ (k : ℕ) (t t' : K) (y y' : Fin (w + 1) → C), ts[k]? = some t → ts[k + 1]? = some t' → sol[k]? = some y →
    sol[k + 1]? = some y' → y' 0 = y 0 + Q (fun i => y i.succ) t (t' - t)

/-- **C53**, the first column: on an increasing separated grid, the loss column starts at its initial value and
grows, from one time point to the next, by the solver's quadrature of the loss along the states of the dynamics
(which are, by `C53_dynamics_partial`, the states without a loss). Stated for any stepper of the solver's shape;
instances for the three solvers follow. -/
theorem loss_column {w : Nat} {g : K → (Fin (w + 1) → C) → (Fin (w + 1) → C)}
    {solver : Solver (Except PyErr) K (Fin (w + 1) → C) B} {args : B}
    {φ : (Fin (w + 1) → C) → K → K → (Fin (w + 1) → C)} (hs : SteppedBy solver g args φ)
    (Q : (Fin w → C) → K → K → C) (hQ : ∀ y t dt, φ y t dt 0 = y 0 + Q (fun i => y i.succ) t dt)
    (z : Fin (w + 1) → C) (t0 t1 : K) (rest : List K) (hdir : t0 ≤ t1) (hsep : Separated (t0 :: t1 :: rest)) :
    ∃ sol, odeintFixed (pureField g) z (t0 :: t1 :: rest) solver [] args = .ok (t0 :: t1 :: rest, sol) ∧
      sol.length = (t0 :: t1 :: rest).length ∧ sol[0]? = some z ∧ FirstColumnIs Q (t0 :: t1 :: rest) sol := by
  obtain ⟨sol, h, hl, h0, hn⟩ := C12_trajectory hs z t0 t1 rest hdir hsep
  refine ⟨sol, h, hl, h0, ?_⟩
  intro k t t' y y' ht ht' hy hy'
  have := hn k t t' y ht ht' hy
  rw [hy'] at this
  cases this
  exact hQ y t (t' - t)

/-- **C53**, the first column is the solver's quadrature: see `loss_column`. -/
theorem C53_quadrature_partial {empty : A} {vf : Obj K C A} {loss : K → List C → Except PyErr (LossOut C)} {w : Nat}
    {f : K → (Fin w → C) → (Fin w → C)} {l : K → (Fin w → C) → C} (h : LossSetting empty vf loss w f l)
    (n : Nat) (args : B) (z : Fin (w + 1) → C) (t0 t1 : K) (rest : List K) (hdir : t0 ≤ t1)
    (hsep : Separated (t0 :: t1 :: rest)) :
    (∃ sol, odeintFixed ((Obj.defunc vf 1 (some loss) (some "autograd") n).field empty (w + 1)) z
        (t0 :: t1 :: rest) (eulerSolver (Except PyErr) K _ B) [] args = .ok (t0 :: t1 :: rest, sol) ∧
      sol.length = (t0 :: t1 :: rest).length ∧ sol[0]? = some z ∧
      FirstColumnIs (fun x t dt => dt • l t x) (t0 :: t1 :: rest) sol) ∧
    (∃ sol, odeintFixed ((Obj.defunc vf 1 (some loss) (some "autograd") n).field empty (w + 1)) z
        (t0 :: t1 :: rest) (midpointSolver (Except PyErr) K _ B) [] args = .ok (t0 :: t1 :: rest, sol) ∧
      sol.length = (t0 :: t1 :: rest).length ∧ sol[0]? = some z ∧
      FirstColumnIs (fun x t dt => dt • l (t + (1 / 2 : K) * dt) (x + ((1 / 2 : K) * dt) • f t x))
        (t0 :: t1 :: rest) sol) ∧
    (∃ sol, odeintFixed ((Obj.defunc vf 1 (some loss) (some "autograd") n).field empty (w + 1)) z
        (t0 :: t1 :: rest) (rk4Solver (Except PyErr) K _ B) [] args = .ok (t0 :: t1 :: rest, sol) ∧
      sol.length = (t0 :: t1 :: rest).length ∧ sol[0]? = some z ∧
      FirstColumnIs (fun x t dt =>
          let k1 := f t x
          let x2 := x + dt • ((1 / 2 : K) • k1)
          let k2 := f (t + 0 * dt) x2
          let x3 := x + dt • ((0 : K) • k1 + (1 / 2 : K) • k2)
          let k3 := f (t + 1 / 2 * dt) x3
          let x4 := x + dt • ((0 : K) • k1 + (0 : K) • k2 + (1 : K) • k3)
          dt • ((1 / 6 : K) • l t x + (1 / 3 : K) • l (t + 0 * dt) x2 + (1 / 3 : K) • l (t + 1 / 2 * dt) x3 +
            (1 / 6 : K) • l (t + 1 / 2 * dt) x4))
        (t0 :: t1 :: rest) sol) := by
  have e1 : (Obj.defunc vf 1 (some loss) (some "autograd") n).field empty (w + 1) =
      pureField (fun t z => (Fin.cons (l t (fun i => z i.succ)) (f t (fun i => z i.succ)) : Fin (w + 1) → C)) := by
    funext t z
    exact loss_field h n t z
  rw [e1]
  refine ⟨loss_column (euler_steppedBy _ args) _ (fun _ _ _ => rfl) z t0 t1 rest hdir hsep,
    loss_column (midpoint_steppedBy _ args) _ (fun _ _ _ => rfl) z t0 t1 rest hdir hsep,
    loss_column (rk4_steppedBy _ args) _ (fun _ _ _ => rfl) z t0 t1 rest hdir hsep⟩

end

/-- **C53 is false** at order two and more: the branch with a loss calls the method `horder_forward`, which does not
exist, so every evaluation raises `AttributeError` (unless the loss itself raises first). -/
theorem C53_order_refuted {K C A : Type} (empty : A) (vf : Obj K C A)
    (loss : K → List C → Except PyErr (LossOut C)) (k : Nat) (hk : 2 ≤ k) (n : Nat) (t : K) (x : List C)
    (v : LossOut C) (hv : loss t (x.drop 1) = .ok v) :
    ((Obj.defunc vf k (some loss) (some "autograd") n).call empty (.tx t x)).2 = .error .attributeError := by
  simp only [Obj.call, Obj.callAt, FieldCall.unpack, pure, Except.pure, if_true, hv, show 1 < k by omega, ite_self]

/-- Why **C53 is false** for the adaptive solvers (`C53_adaptive_refuted`): the error norm that accepts or rejects a step
and sets the next step size ranges over the loss column too. However small the error `e` of the dynamics, some error of the loss column makes
the ratio of the augmented state exceed one, so that a step is rejected that would be accepted without the loss. -/
theorem C53_loss_in_error_norm (w : Nat) (atol rtol : ℝ) (ha : 0 < atol) (x xNew e : Fin (w + 1) → ℝ) :
    ∃ c : ℝ, 1 < errorRatio Finset.univ atol rtol (Fin.cons 0 x : Fin (w + 2) → ℝ) (Fin.cons 0 xNew)
      (Fin.cons c e) := by
  refine ⟨atol * (w + 3), ?_⟩
  unfold errorRatio hairerNormOn
  rw [Real.lt_sqrt (by norm_num), Fin.sum_univ_succ]
  simp only [errorScaled, Fin.cons_zero, abs_zero, max_self, mul_zero, add_zero, Fin.cons_succ,
    Finset.card_univ, Fintype.card_fin]
  have hpos : (0 : ℝ) < ((w + 2 : ℕ) : ℝ) := by positivity
  rw [lt_div_iff₀ hpos]
  have h1 : |atol * ((w : ℝ) + 3) / atol| = (w : ℝ) + 3 := by
    rw [mul_div_cancel_left₀ _ ha.ne']
    exact abs_of_pos (by positivity)
  rw [h1]
  have h2 : 0 ≤ ∑ i : Fin (w + 1), |e i / (atol + rtol * max |x i| |xNew i|)| ^ 2 :=
    Finset.sum_nonneg (fun i _ => by positivity)
  have h3 : ((w + 2 : ℕ) : ℝ) = (w : ℝ) + 2 := by push_cast; ring
  rw [h3]
  have h4 : (0 : ℝ) ≤ w := Nat.cast_nonneg w
  nlinarith

/-- The setting of C53 is met by `f(x) = x` (a plain callable without `t`) and the loss `l(t, x) = t + Σ x`. -/
example (w : Nat) : LossSetting () (Obj.base (.fn ⟨[⟨"x", false⟩], false, fun _ env => match env with
      | [(_, ArgVal.state x)] => .ok x
      | _ => .error .runtimeError⟩ : Obj ℚ ℚ Unit) false 0) (fun t x => .ok (.vec (t + x.sum))) w
    (fun _ x => x) (fun t x => t + (List.ofFn x).sum) :=
  ⟨rfl, fun _ _ => rfl, fun _ _ => rfl, fun _ _ => rfl⟩

end Torchdyn
