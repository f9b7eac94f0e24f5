import Verif.Model.TracedControl
import Verif.Props.Autograd

/-!
C137: gradients through a `DataControl` layer.
-/

namespace Torchdyn

open Spec

variable {Q V U A : Type} [NormedAddCommGroup Q] [NormedSpace ℝ Q] [NormedAddCommGroup V] [NormedSpace ℝ V] [NormedAddCommGroup U]
  [NormedSpace ℝ U]

/-- The values of the forward pass of a data-controlled model as a function of all inputs: `odeint` with the control read from the
initial state. -/
noncomputable def controlledValues (g : Q → ℝ → V → U → V) (cols : V →L[ℝ] U) (x : V) (p : Q) (tSpan : List ℝ)
    (solver : Solver (Except PyErr) ℝ V A) (args : A) : Except PyErr (List ℝ × List V) :=
  odeintFixed (pureField (fun t y => g p t y (cols x))) x tSpan solver [] args

/-- A detached control contributes nothing to the recorded derivative of the field. -/
theorem tracedControlled_leaf {g : Q → ℝ → V → U → V} {q : Q} (u : U)
    (hg : ∀ t y, DifferentiableAt ℝ (fun p : Q × V × U => g p.1 t p.2.1 p.2.2) (q, y, u)) :
    tracedControlled g q (leaf u) = tracedField (fun p t y => g p t y u) q := by
  funext t y
  refine Prod.ext rfl ?_
  have h1 : HasFDerivAt (fun p : Q × V => ((p.1, p.2, u) : Q × V × U))
      ((ContinuousLinearMap.fst ℝ Q V).prod ((ContinuousLinearMap.snd ℝ Q V).prod 0)) (q, y.1) :=
    hasFDerivAt_fst.prodMk (hasFDerivAt_snd.prodMk (hasFDerivAt_const u _))
  have h2 : HasFDerivAt (fun p : Q × V => g p.1 t p.2 u) _ (q, y.1) :=
    HasFDerivAt.comp (q, y.1) (f := fun p : Q × V => ((p.1, p.2, u) : Q × V × U)) (hg t y.1).hasFDerivAt h1
  simp only [tracedControlled, tracedField, leaf]
  rw [h2.fderiv]
  ext v
  rfl

/-- What a user expects of the gradients of a data-controlled model: the rows returned in the graph have the values of the rows the
model returns, and their recorded derivative is the derivative of these rows with respect to the inputs. -/
def ControlledExact (solver : Solver (Except PyErr) ℝ V A) (tsolver : Solver (Except PyErr) ℝ (Traced Q V) A) (args : A)
    (g : Q → ℝ → V → U → V) (q : Q) (cols : V →L[ℝ] U) (x : Q → V) (X : Q →L[ℝ] V) (tSpan : List ℝ) : Prop :=
  ∃ (ts : List ℝ) (sol : Q → List V) (tsol : List (Traced Q V)),
    (∀ p, controlledValues g cols (x p) p tSpan solver args = .ok (ts, sol p)) ∧
    controlledForward g q cols (x q, X) tSpan tsolver args = .ok (ts, tsol) ∧
    ∀ (k : ℕ) (y : Traced Q V), tsol[k]? = some y → (sol q)[k]? = some y.1 ∧
      ∃ row : Q → V, (∀ p, (sol p)[k]? = some (row p)) ∧ HasFDerivAt row y.2 q

theorem controlled_frozen {solver : Solver (Except PyErr) ℝ V A} {tsolver : Solver (Except PyErr) ℝ (Traced Q V) A} {args : A} {q : Q}
    (h : ∀ f : Q → ℝ → V → V, DifferentiableField f q → BackpropExact (fun _ => solver) tsolver f q args)
    {g : Q → ℝ → V → U → V} (cols : V →L[ℝ] U) {x : Q → V} {X : Q →L[ℝ] V} (hx : HasFDerivAt x X q)
    (hg : ∀ t y, DifferentiableAt ℝ (fun p : Q × V × U => g p.1 t p.2.1 p.2.2) (q, y, cols (x q)))
    (t0 t1 : ℝ) (rest : List ℝ) (hsep : Separated (t0 :: t1 :: rest)) :
    ∃ (ts : List ℝ) (sol : Q → List V) (tsol : List (Traced Q V)),
      (∀ p, odeintFixed (pureField (fun t y => g p t y (cols (x q)))) (x p) (t0 :: t1 :: rest) solver [] args = .ok (ts, sol p)) ∧
      controlledForward g q cols (x q, X) (t0 :: t1 :: rest) tsolver args = .ok (ts, tsol) ∧
      tsol.length = (t0 :: t1 :: rest).length ∧
      ∀ (k : ℕ) (y : Traced Q V), tsol[k]? = some y → (sol q)[k]? = some y.1 ∧
        ∃ row : Q → V, (∀ p, (sol p)[k]? = some (row p)) ∧ HasFDerivAt row y.2 q := by
  have hf : DifferentiableField (fun p t y => g p t y (cols (x q))) q := by
    intro t y
    exact (hg t y).comp (q, y) (f := fun p : Q × V => ((p.1, p.2, cols (x q)) : Q × V × U))
      (differentiableAt_fst.prodMk (differentiableAt_snd.prodMk (differentiableAt_const _)))
  obtain ⟨ts, sol, tsol, h1, h2, h3, h4⟩ := h _ hf x X hx t0 t1 rest hsep
  refine ⟨ts, sol, tsol, h1, ?_, h3, h4⟩
  rw [controlledForward, controlOf, tracedControlled_leaf _ hg]
  exact h2

/-- **C137**, what holds, for `euler`, `midpoint` and `rk4`: the values are those of the model, and the recorded derivative is that of the
rows computed with the control kept fixed at its value, whatever the inputs: what the control depends on receives no gradient
through it. -/
theorem C137_frozen_partial {q : Q} (args : A) {g : Q → ℝ → V → U → V} (cols : V →L[ℝ] U) {x : Q → V} {X : Q →L[ℝ] V}
    (hx : HasFDerivAt x X q) (hg : ∀ t y, DifferentiableAt ℝ (fun p : Q × V × U => g p.1 t p.2.1 p.2.2) (q, y, cols (x q)))
    (t0 t1 : ℝ) (rest : List ℝ) (hsep : Separated (t0 :: t1 :: rest))
    (solver : Solver (Except PyErr) ℝ V A) (tsolver : Solver (Except PyErr) ℝ (Traced Q V) A)
    (hs : (solver = eulerSolver _ _ _ _ ∧ tsolver = eulerSolver _ _ _ _) ∨ (solver = midpointSolver _ _ _ _ ∧ tsolver = midpointSolver _ _ _ _) ∨
      (solver = rk4Solver _ _ _ _ ∧ tsolver = rk4Solver _ _ _ _)) :
    ∃ (ts : List ℝ) (sol : Q → List V) (tsol : List (Traced Q V)),
      (∀ p, odeintFixed (pureField (fun t y => g p t y (cols (x q)))) (x p) (t0 :: t1 :: rest) solver [] args = .ok (ts, sol p)) ∧
      controlledValues g cols (x q) q (t0 :: t1 :: rest) solver args = .ok (ts, sol q) ∧
      controlledForward g q cols (x q, X) (t0 :: t1 :: rest) tsolver args = .ok (ts, tsol) ∧
      tsol.length = (t0 :: t1 :: rest).length ∧
      ∀ (k : ℕ) (y : Traced Q V), tsol[k]? = some y → (sol q)[k]? = some y.1 ∧
        ∃ row : Q → V, (∀ p, (sol p)[k]? = some (row p)) ∧ HasFDerivAt row y.2 q := by
  have key : ∃ (ts : List ℝ) (sol : Q → List V) (tsol : List (Traced Q V)),
      (∀ p, odeintFixed (pureField (fun t y => g p t y (cols (x q)))) (x p) (t0 :: t1 :: rest) solver [] args = .ok (ts, sol p)) ∧
      controlledForward g q cols (x q, X) (t0 :: t1 :: rest) tsolver args = .ok (ts, tsol) ∧
      tsol.length = (t0 :: t1 :: rest).length ∧
      ∀ (k : ℕ) (y : Traced Q V), tsol[k]? = some y → (sol q)[k]? = some y.1 ∧
        ∃ row : Q → V, (∀ p, (sol p)[k]? = some (row p)) ∧ HasFDerivAt row y.2 q := by
    rcases hs with ⟨rfl, rfl⟩ | ⟨rfl, rfl⟩ | ⟨rfl, rfl⟩
    · exact controlled_frozen (fun f hf => C130_euler hf args) cols hx hg t0 t1 rest hsep
    · exact controlled_frozen (fun f hf => C130_midpoint hf args) cols hx hg t0 t1 rest hsep
    · exact controlled_frozen (fun f hf => C130_rk4 hf args) cols hx hg t0 t1 rest hsep
  obtain ⟨ts, sol, tsol, h1, h2, h3, h4⟩ := key
  exact ⟨ts, sol, tsol, h1, h1 q, h2, h3, h4⟩

/-- **C137 is false**: the model whose field is its control, `x' = u`, returns `x + (t1 - t0) x` after one step of `euler`, and the recorded
derivative with respect to `x` is `1`, for every initial state and every interval. -/
theorem C137_gradient_refuted (args : A) (q t0 t1 : ℝ) (h : t0 < t1) (hsep : Separated [t0, t1]) :
    ¬ ControlledExact (eulerSolver (Except PyErr) ℝ ℝ A) (eulerSolver (Except PyErr) ℝ (Traced ℝ ℝ) A) args
      (fun _ _ _ u => u) q (ContinuousLinearMap.id ℝ ℝ) (fun p : ℝ => p) (ContinuousLinearMap.id ℝ ℝ) [t0, t1] := by
  rintro ⟨ts, sol, tsol, h1, h2, h3⟩
  obtain ⟨ts', sol', tsol', h1', -, h2', hl, h3'⟩ := C137_frozen_partial (Q := ℝ) (V := ℝ) (U := ℝ) (q := q) args
    (g := fun _ _ _ u => u) (ContinuousLinearMap.id ℝ ℝ) (x := fun p : ℝ => p) (X := ContinuousLinearMap.id ℝ ℝ) (hasFDerivAt_id q)
    (fun t y => differentiableAt_snd.comp _ differentiableAt_snd) t0 t1 [] hsep _ _ (Or.inl ⟨rfl, rfl⟩)
  have e := h2.symm.trans h2'
  injection e with e
  injection e with e1 e2
  subst e1 e2
  have hk : ∃ y, tsol[1]? = some y := ⟨tsol[1]'(by rw [hl]; simp), List.getElem?_eq_getElem _⟩
  obtain ⟨y, hy⟩ := hk
  obtain ⟨-, row, hrow, hd⟩ := h3 1 y hy
  obtain ⟨-, row', hrow', hd'⟩ := h3' 1 y hy
  have run : ∀ u x : ℝ, odeintFixed (pureField (fun _ _ => u)) x [t0, t1] (eulerSolver (Except PyErr) ℝ ℝ A) [] args =
      .ok ([t0, t1], [x, x + (t1 - t0) * u]) := by
    intro u x
    rw [odeintFixed_forward _ _ _ h.le]
    have hstep : SteppedBy (eulerSolver (Except PyErr) ℝ ℝ A) (fun _ _ => u) args (fun x _ dt => x + dt • u) :=
      euler_steppedBy (fun _ _ => u) args
    rw [fixedOdeint_default _ (pure ()) (fun x _ dt => x + dt • u) hstep.tick x [t0, t1] (by simp) hsep, tickN_pure]
    rfl
  have er : row = fun p => p + (t1 - t0) * p := by
    funext p
    have a := (h1 p).symm.trans (run p p)
    injection a with a
    injection a with _ a
    have b := hrow p
    rw [a] at b
    simpa using b.symm
  have er' : row' = fun p => p + (t1 - t0) * q := by
    funext p
    have a := (h1' p).symm.trans (run q p)
    injection a with a
    injection a with _ a
    have b := hrow' p
    rw [a] at b
    simpa using b.symm
  rw [er] at hd
  rw [er'] at hd'
  have d1 : HasFDerivAt (fun p : ℝ => p + (t1 - t0) * p) (ContinuousLinearMap.id ℝ ℝ + (t1 - t0) • ContinuousLinearMap.id ℝ ℝ) q :=
    (hasFDerivAt_id q).add ((hasFDerivAt_id q).const_mul (t1 - t0))
  have d2 : HasFDerivAt (fun p : ℝ => p + (t1 - t0) * q) (ContinuousLinearMap.id ℝ ℝ) q :=
    (hasFDerivAt_id q).add_const _
  have u := (hd.unique d1).symm.trans (hd'.unique d2)
  have v := congrArg (fun L : ℝ →L[ℝ] ℝ => L 1) u
  simp at v
  linarith

/-- The hypotheses hold for the default interval. -/
example (args : A) (q : ℝ) :
    ¬ ControlledExact (eulerSolver (Except PyErr) ℝ ℝ A) (eulerSolver (Except PyErr) ℝ (Traced ℝ ℝ) A) args
      (fun _ _ _ u => u) q (ContinuousLinearMap.id ℝ ℝ) (fun p : ℝ => p) (ContinuousLinearMap.id ℝ ℝ) [0, 1] := by
  refine C137_gradient_refuted args q 0 1 one_pos ?_
  simp only [Separated, Close, List.pairwise_cons, List.mem_cons, List.not_mem_nil, or_false, forall_eq, false_imp_iff,
    implies_true, List.Pairwise.nil, and_true]
  norm_num

end Torchdyn
