import Verif.Props.IntegralLoss

/-!
C53 for the constructor: a `NeuralODE` built with an integral loss integrates that loss, under `autograd` and only there.
-/

set_option linter.unusedSimpArgs false
set_option linter.unusedSectionVars false

namespace Torchdyn

variable {K C A : Type}

/-- **C53 (constructor).** The field that `NeuralODE(u, integral_loss=loss, sensitivity='autograd')` integrates, for a field `u` that
is called as `u(x)`: on the state with the loss column first, the value of the loss at `t` and the state without the column,
followed by the value of the user's field at that state, the time being assigned to the submodules that store it. -/
theorem C53_constructor_partial (empty : A) (u : Obj K C A) (h : u.hasT = false) (loss : K → List C → Except PyErr (LossOut C))
    (t : K) (c : C) (x : List C) :
    ((NeuralOde.make u 1 (some loss) "autograd").vf.call empty (.tx t (c :: x))).2 =
      (loss t x).bind fun d => ((u.setTime t).call empty (.onlyX x)).2.map fun y => d.cols ++ y := by
  cases u with
  | fn f =>
    simp only [Obj.hasT] at h
    cases hl : loss t x <;> simp [NeuralOde.make, standardize, Obj.isModule, Obj.hasT, h, Obj.call, Obj.callAt, FieldCall.unpack, pure,
      Except.pure, Obj.setTime, hl, Except.bind]
  | module f subs =>
    simp only [Obj.hasT] at h
    cases hl : loss t x <;> simp [NeuralOde.make, standardize, Obj.isModule, Obj.hasT, h, Obj.call, Obj.callAt, FieldCall.unpack, pure,
      Except.pure, Obj.setTime, hl, Except.bind]
  | base vf b n => simp [Obj.hasT] at h
  | defunc vf o l s n => simp [Obj.hasT] at h

/-- **C53 (constructor, modules with a time).** The same for a module that takes the time, called as `u(t, x)`. -/
theorem C53_constructor_time_partial (empty : A) (u : Obj K C A) (hm : u.isModule = true) (h : u.hasT = true)
    (loss : K → List C → Except PyErr (LossOut C)) (t : K) (c : C) (x : List C) :
    ((NeuralOde.make u 1 (some loss) "autograd").vf.call empty (.tx t (c :: x))).2 =
      (loss t x).bind fun d => ((u.setTime t).call empty (.tx t x)).2.map fun y => d.cols ++ y := by
  have hv : (NeuralOde.make u 1 (some loss) "autograd").vf = .defunc u 1 (some loss) (some "autograd") 0 := by
    simp only [NeuralOde.make, C50_idempotent]
    simp only [standardize, hm, h, if_true]
  rw [hv, Obj.call, Obj.callAt, Obj.call, ← Obj.callAt_some]
  cases hl : loss t x <;> simp [FieldCall.unpack, pure, Except.pure, hm, hl, Except.bind]

/-- **C53 (constructor, other sensitivities).** With any other sensitivity the forward pass integrates the user's field alone: the
loss does not change the value of the field. -/
theorem C53_constructor_adjoint (empty : A) (u : Obj K C A) (order : ℕ) (loss : K → List C → Except PyErr (LossOut C)) (sens : String)
    (hs : sens ≠ "autograd") (call : FieldCall K C A) :
    ((NeuralOde.make u order (some loss) sens).vf.call empty call).2 = ((NeuralOde.make u order none sens).vf.call empty call).2 := by
  have key : ∀ v : Obj K C A, ((Obj.defunc v order (some loss) (some sens) 0).call empty call).2 =
      ((Obj.defunc v order none (some sens) 0).call empty call).2 := by
    intro v
    simp only [Obj.call, Obj.callAt, Option.some.injEq, if_neg hs]
    cases call.unpack empty with
    | error e => rfl
    | ok r =>
      obtain ⟨t, x, args⟩ := r
      simp only [ite_self]
      split
      · rfl
      · split <;> rfl
  simp only [NeuralOde.make, C50_idempotent]
  simp only [standardize, if_true]
  exact key _

/-- A field `x ↦ x` and the loss `1` on states of integers: the constructed model integrates `1` in the loss column. -/
example : (((NeuralOde.make (A := Unit) (.fn ⟨[⟨"x", false⟩], false, fun _ b => match b with
      | [(_, .state x)] => .ok x
      | _ => .error .typeError⟩) 1 (some fun _ _ => .ok (.vec 1)) "autograd").vf.call () (.tx (0 : ℕ) [(5 : ℤ), 7, 8])).2 =
    .ok [1, 7, 8]) := by
  rw [C53_constructor_partial]
  · rfl
  · rfl

end Torchdyn
