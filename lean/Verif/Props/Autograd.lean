import Verif.Model.Traced
import Verif.Model.Hyper
import Mathlib.Analysis.Calculus.FDeriv.Mul
import Mathlib.Analysis.Calculus.FDeriv.Pow
import Verif.Props.FixedStep
import Mathlib.Analysis.Calculus.FDeriv.Add
import Mathlib.Analysis.Calculus.FDeriv.Comp

/-!
# Gradients by back-propagation through the solver (C130)
-/

set_option linter.unusedSectionVars false
set_option linter.unusedSimpArgs false
set_option linter.unusedVariables false

namespace Torchdyn

open Spec

section

variable {Q V A : Type} [NormedAddCommGroup Q] [NormedSpace ℝ Q] [NormedAddCommGroup V] [NormedSpace ℝ V]

/-- The pair `y` is the value and the derivative at `q` of the quantity `x`, a function of the inputs. -/
def Tracks (q : Q) (x : Q → V) (y : Traced Q V) : Prop := y.1 = x q ∧ HasFDerivAt x y.2 q

theorem Tracks.add {q : Q} {x x' : Q → V} {y y' : Traced Q V} (h : Tracks q x y) (h' : Tracks q x' y') :
    Tracks q (fun p => x p + x' p) (y + y') := by
  refine ⟨?_, h.2.add h'.2⟩
  rw [Prod.fst_add, h.1, h'.1]

theorem Tracks.smul {q : Q} {x : Q → V} {y : Traced Q V} (h : Tracks q x y) (c : ℝ) : Tracks q (fun p => c • x p) (c • y) := by
  refine ⟨?_, h.2.const_smul c⟩
  rw [Prod.smul_fst, h.1]

theorem Tracks.neg {q : Q} {x : Q → V} {y : Traced Q V} (h : Tracks q x y) : Tracks q (fun p => -x p) (-y) := by
  refine ⟨?_, h.2.neg⟩
  rw [Prod.fst_neg, h.1]

/-- The fields are differentiable in inputs and state at the inputs `q`. -/
def DifferentiableField (f : Q → ℝ → V → V) (q : Q) : Prop := ∀ t x, DifferentiableAt ℝ (fun p : Q × V => f p.1 t p.2) (q, x)

theorem Tracks.field {f : Q → ℝ → V → V} {q : Q} (hf : DifferentiableField f q) {x : Q → V} {y : Traced Q V} (h : Tracks q x y)
    (t : ℝ) : Tracks q (fun p => f p t (x p)) (tracedField f q t y) := by
  refine ⟨by rw [tracedField, h.1], ?_⟩
  have h1 : HasFDerivAt (fun p => (p, x p)) ((ContinuousLinearMap.id ℝ Q).prod y.2) q := (hasFDerivAt_id q).prodMk h.2
  have h2 := (hf t y.1).hasFDerivAt
  rw [h.1] at h2
  have := HasFDerivAt.comp q (f := fun p => (p, x p)) h2 h1
  simpa [tracedField, h.1, Function.comp_def] using this

/-- One step of the solvers `solver p` on the fields `f p`, and one step of `tsolver` inside the graph: neither raises, and the latter gives the
value and the derivative of the former. -/
def StepTracked (solver : Q → Solver (Except PyErr) ℝ V A) (tsolver : Solver (Except PyErr) ℝ (Traced Q V) A) (f : Q → ℝ → V → V) (q : Q)
    (args : A) : Prop :=
  ∃ (φ : Q → V → ℝ → ℝ → V) (Φ : Traced Q V → ℝ → ℝ → Traced Q V), (∀ p, SteppedBy (solver p) (f p) args (φ p)) ∧
    SteppedBy tsolver (tracedField f q) args Φ ∧
    ∀ (x : Q → V) (y : Traced Q V) (t dt : ℝ), Tracks q x y → Tracks q (fun p => φ p (x p) t dt) (Φ y t dt)

theorem euler_tracked {f : Q → ℝ → V → V} {q : Q} (hf : DifferentiableField f q) (args : A) :
    StepTracked (fun _ => eulerSolver (Except PyErr) ℝ V A) (eulerSolver (Except PyErr) ℝ (Traced Q V) A) f q args :=
  ⟨_, _, fun p => euler_steppedBy (f p) args, euler_steppedBy _ args, fun x y t dt h => h.add ((h.field hf t).smul dt)⟩

theorem midpoint_tracked {f : Q → ℝ → V → V} {q : Q} (hf : DifferentiableField f q) (args : A) :
    StepTracked (fun _ => midpointSolver (Except PyErr) ℝ V A) (midpointSolver (Except PyErr) ℝ (Traced Q V) A) f q args :=
  ⟨_, _, fun p => midpoint_steppedBy (f p) args, midpoint_steppedBy _ args, fun x y t dt h =>
    h.add (((h.add ((h.field hf t).smul _)).field hf _).smul dt)⟩

theorem rk4_tracked {f : Q → ℝ → V → V} {q : Q} (hf : DifferentiableField f q) (args : A) :
    StepTracked (fun _ => rk4Solver (Except PyErr) ℝ V A) (rk4Solver (Except PyErr) ℝ (Traced Q V) A) f q args := by
  refine ⟨_, _, fun p => rk4_steppedBy (f p) args, rk4_steppedBy _ args, fun x y t dt h => ?_⟩
  have h1 := h.field hf t
  have h2 := (h.add ((h1.smul (nth2 (constructRk4 ℝ).a 0 0)).smul dt)).field hf (t + nth (constructRk4 ℝ).c 0 * dt)
  have h3 := (h.add (((h1.smul (nth2 (constructRk4 ℝ).a 1 0)).add (h2.smul (nth2 (constructRk4 ℝ).a 1 1))).smul dt)).field hf
    (t + nth (constructRk4 ℝ).c 1 * dt)
  have h4 := (h.add ((((h1.smul (nth2 (constructRk4 ℝ).a 2 0)).add (h2.smul (nth2 (constructRk4 ℝ).a 2 1))).add
    (h3.smul (nth2 (constructRk4 ℝ).a 2 2))).smul dt)).field hf (t + nth (constructRk4 ℝ).c 2 * dt)
  exact h.add (((((h1.smul (nth (constructRk4 ℝ).bsol 0)).add (h2.smul (nth (constructRk4 ℝ).bsol 1))).add
    (h3.smul (nth (constructRk4 ℝ).bsol 2))).add (h4.smul (nth (constructRk4 ℝ).bsol 3))).smul dt)

/-- Along a grid the traced states are values and derivatives of the states. -/
theorem gridStates_tracked {q : Q} {φ : Q → V → ℝ → ℝ → V} {Φ : Traced Q V → ℝ → ℝ → Traced Q V}
    (hΦ : ∀ (x : Q → V) (y : Traced Q V) (t dt : ℝ), Tracks q x y → Tracks q (fun p => φ p (x p) t dt) (Φ y t dt))
    (ts : List ℝ) {x : Q → V} {y : Traced Q V} (h : Tracks q x y) (k : ℕ) (hk : k < ts.length) :
    ∃ (row : Q → V) (r : Traced Q V), (∀ p, (gridStates (φ p) (x p) ts)[k]? = some (row p)) ∧
      (gridStates Φ y ts)[k]? = some r ∧ Tracks q row r := by
  induction ts generalizing x y k with
  | nil => simp at hk
  | cons t ts ih =>
    cases ts with
    | nil =>
      have : k = 0 := by simpa using hk
      subst this
      exact ⟨x, y, fun p => rfl, rfl, h⟩
    | cons t' ts =>
      cases k with
      | zero => exact ⟨x, y, fun p => rfl, rfl, h⟩
      | succ k => exact ih (hΦ x y t (t' - t) h) k (by simpa using hk)

theorem StepTracked.run {solver : Q → Solver (Except PyErr) ℝ V A} {tsolver : Solver (Except PyErr) ℝ (Traced Q V) A}
    {f : Q → ℝ → V → V} {q : Q} {args : A} (h : StepTracked solver tsolver f q args)
    {x : Q → V} {X : Q →L[ℝ] V} (hx : HasFDerivAt x X q) (ts : List ℝ) (hts : 2 ≤ ts.length) (hsep : Separated ts) :
    ∃ (sol : Q → List V) (tsol : List (Traced Q V)),
      (∀ p, fixedOdeint torchIsclose (fun x t dt => (solver p).step (pureField (f p)) x t dt none args) (x p) ts [] = .ok (ts, sol p)) ∧
      fixedOdeint torchIsclose (fun x t dt => tsolver.step (pureField (tracedField f q)) x t dt none args) (x q, X) ts [] =
        .ok (ts, tsol) ∧
      tsol.length = ts.length ∧ ∀ (k : ℕ) (y : Traced Q V), tsol[k]? = some y → (sol q)[k]? = some y.1 ∧
        ∃ row : Q → V, (∀ p, (sol p)[k]? = some (row p)) ∧ HasFDerivAt row y.2 q := by
  obtain ⟨φ, Φ, h1, h2, h3⟩ := h
  refine ⟨fun p => gridStates (φ p) (x p) ts, gridStates Φ (x q, X) ts, fun p => ?_, ?_, gridStates_length _ _ _, fun k y hk => ?_⟩
  · rw [fixedOdeint_default _ (pure ()) (φ p) (h1 p).tick _ _ hts hsep, tickN_pure]
    rfl
  · rw [fixedOdeint_default _ (pure ()) Φ h2.tick _ _ hts hsep, tickN_pure]
    rfl
  · have hlt : k < ts.length := by
      have := (List.getElem?_eq_some_iff.1 hk).1
      rwa [gridStates_length] at this
    obtain ⟨row, r, hrow, hr, ht⟩ := gridStates_tracked h3 ts (y := (x q, X)) ⟨rfl, hx⟩ k hlt
    rw [hk, Option.some.injEq] at hr
    subst hr
    exact ⟨by rw [hrow, ht.1], row, hrow, ht.2⟩

theorem DifferentiableField.reverse {f : Q → ℝ → V → V} {q : Q} (hf : DifferentiableField f q) :
    DifferentiableField (fun p t x => -f p (-t) x) q := fun t x => (hf (-t) x).neg

theorem tracedField_reverse (f : Q → ℝ → V → V) (q : Q) :
    tracedField (fun p t x => -f p (-t) x) q = fun t y => -tracedField f q (-t) y := by
  funext t y
  simp only [tracedField, Prod.neg_mk, Prod.mk.injEq, true_and]
  rw [fderiv_fun_neg]
  rfl

/-- What a user expects of `sensitivity='autograd'` with a solver: whatever the grid, increasing or decreasing, the rows of the
solution in the graph have the values of the rows `odeint` returns, and their recorded derivative is the derivative of these rows with
respect to the inputs, on which initial state, field and solver (the hypernet of a hypersolver) depend. -/
def BackpropExact (solver : Q → Solver (Except PyErr) ℝ V A) (tsolver : Solver (Except PyErr) ℝ (Traced Q V) A) (f : Q → ℝ → V → V) (q : Q)
    (args : A) : Prop :=
  ∀ (x : Q → V) (X : Q →L[ℝ] V), HasFDerivAt x X q → ∀ (t0 t1 : ℝ) (rest : List ℝ), Separated (t0 :: t1 :: rest) →
    ∃ (ts : List ℝ) (sol : Q → List V) (tsol : List (Traced Q V)),
      (∀ p, odeintFixed (pureField (f p)) (x p) (t0 :: t1 :: rest) (solver p) [] args = .ok (ts, sol p)) ∧
      autogradOdeint f q (x q, X) (t0 :: t1 :: rest) tsolver [] args = .ok (ts, tsol) ∧
      tsol.length = (t0 :: t1 :: rest).length ∧
      ∀ (k : ℕ) (y : Traced Q V), tsol[k]? = some y → (sol q)[k]? = some y.1 ∧
        ∃ row : Q → V, (∀ p, (sol p)[k]? = some (row p)) ∧ HasFDerivAt row y.2 q

theorem backpropExact {solver : Q → Solver (Except PyErr) ℝ V A} {tsolver : Solver (Except PyErr) ℝ (Traced Q V) A} {args : A}
    {q : Q} (h : ∀ f : Q → ℝ → V → V, DifferentiableField f q → StepTracked solver tsolver f q args) {f : Q → ℝ → V → V}
    (hf : DifferentiableField f q) : BackpropExact solver tsolver f q args := by
  intro x X hx t0 t1 rest hsep
  by_cases hdir : t1 < t0
  · obtain ⟨sol, tsol, h1, h2, h3, h4⟩ := (h _ hf.reverse).run hx ((t0 :: t1 :: rest).map (fun t => -t)) (by simp)
      (by rwa [separated_neg])
    refine ⟨(t0 :: t1 :: rest).map (fun t => -t), sol, tsol, fun p => ?_, ?_, by simpa using h3, h4⟩
    · rw [odeintFixed_backward _ _ _ hdir]
      exact h1 p
    · rw [autogradOdeint, odeintFixed_backward _ _ _ hdir]
      rw [tracedField_reverse] at h2
      exact h2
  · obtain ⟨sol, tsol, h1, h2, h3, h4⟩ := (h _ hf).run hx (t0 :: t1 :: rest) (by simp) hsep
    refine ⟨t0 :: t1 :: rest, sol, tsol, fun p => ?_, ?_, h3, h4⟩
    · rw [odeintFixed_forward _ _ _ (not_lt.1 hdir)]
      exact h1 p
    · rw [autogradOdeint, odeintFixed_forward _ _ _ (not_lt.1 hdir)]
      exact h2

/-- **C130.** Back-propagation through `euler` gives the gradient of the returned states, for all differentiable fields, grids and
initial states. -/
theorem C130_euler {f : Q → ℝ → V → V} {q : Q} (hf : DifferentiableField f q) (args : A) :
    BackpropExact (fun _ => eulerSolver (Except PyErr) ℝ V A) (eulerSolver (Except PyErr) ℝ (Traced Q V) A) f q args :=
  backpropExact (fun _ hf => euler_tracked hf args) hf

/-- **C130** for `midpoint`. -/
theorem C130_midpoint {f : Q → ℝ → V → V} {q : Q} (hf : DifferentiableField f q) (args : A) :
    BackpropExact (fun _ => midpointSolver (Except PyErr) ℝ V A) (midpointSolver (Except PyErr) ℝ (Traced Q V) A) f q args :=
  backpropExact (fun _ hf => midpoint_tracked hf args) hf

/-- **C130** for `rk4`. -/
theorem C130_rk4 {f : Q → ℝ → V → V} {q : Q} (hf : DifferentiableField f q) (args : A) :
    BackpropExact (fun _ => rk4Solver (Except PyErr) ℝ V A) (rk4Solver (Except PyErr) ℝ (Traced Q V) A) f q args :=
  backpropExact (fun _ hf => rk4_tracked hf args) hf

/-- A hypersolver, whose hypernet may depend on the inputs too. -/
theorem hyper_tracked {order : ℕ} {solver : Q → Solver (Except PyErr) ℝ V A} {tsolver : Solver (Except PyErr) ℝ (Traced Q V) A}
    {f g : Q → ℝ → V → V} {q : Q} {args : A} (hg : DifferentiableField g q) (h : StepTracked solver tsolver f q args) :
    StepTracked (fun p => { solver p with step := hyperStep order (solver p).step (pureField (g p)) })
      { tsolver with step := hyperStep order tsolver.step (pureField (tracedField g q)) } f q args := by
  obtain ⟨φ, Φ, h1, h2, h3⟩ := h
  refine ⟨fun p x t dt => φ p x t dt + dt ^ (order + 1) • g p t x, fun y t dt => Φ y t dt + dt ^ (order + 1) • tracedField g q t y,
    fun p x t dt => ?_, fun x t dt => ?_, fun x y t dt h => (h3 x y t dt h).add ((h.field hg t).smul _)⟩
  · obtain ⟨k, e, hs⟩ := h1 p x t dt
    refine ⟨none, none, ?_⟩
    simp only [hyperStep, hs, bind, Except.bind, pureField, pure, Except.pure]
  · obtain ⟨k, e, hs⟩ := h2 x t dt
    refine ⟨none, none, ?_⟩
    simp only [hyperStep, hs, bind, Except.bind, pureField, pure, Except.pure]

/-- **C130** for the hypersolvers: gradients with respect to the parameters of the hypernet `g` are exact too. -/
theorem C130_hyper {f g : Q → ℝ → V → V} {q : Q} (hf : DifferentiableField f q) (hg : DifferentiableField g q) (args : A) :
    BackpropExact (fun p => hyperEulerSolver (Except PyErr) ℝ V A (pureField (g p)))
        (hyperEulerSolver (Except PyErr) ℝ (Traced Q V) A (pureField (tracedField g q))) f q args ∧
      BackpropExact (fun p => hyperMidpointSolver (Except PyErr) ℝ V A (pureField (g p)))
        (hyperMidpointSolver (Except PyErr) ℝ (Traced Q V) A (pureField (tracedField g q))) f q args ∧
      BackpropExact (fun p => hyperRk4Solver (Except PyErr) ℝ V A (pureField (g p)))
        (hyperRk4Solver (Except PyErr) ℝ (Traced Q V) A (pureField (tracedField g q))) f q args :=
  ⟨backpropExact (fun _ hf => hyper_tracked hg (euler_tracked hf args)) hf,
    backpropExact (fun _ hf => hyper_tracked hg (midpoint_tracked hf args)) hf,
    backpropExact (fun _ hf => hyper_tracked hg (rk4_tracked hf args)) hf⟩

/-- The runs `r p` and the run `R` in the graph raise the same error, or return the same times and `R` the values and derivatives of the
rows of `r`. -/
def TrackedOutcome (q : Q) (r : Q → Except PyErr (List ℝ × List V)) (R : Except PyErr (List ℝ × List (Traced Q V))) : Prop :=
  (∃ e, (∀ p, r p = .error e) ∧ R = .error e) ∨
    ∃ (ts : List ℝ) (rows : List (Q → V)) (trows : List (Traced Q V)), (∀ p, r p = .ok (ts, rows.map fun row => row p)) ∧
      R = .ok (ts, trows) ∧ List.Forall₂ (Tracks q) rows trows

/-- What a user expects of `sensitivity='autograd'`, for all grids and all `save_at`, accepted or not. -/
def BackpropExactSaved (solver : Q → Solver (Except PyErr) ℝ V A) (tsolver : Solver (Except PyErr) ℝ (Traced Q V) A)
    (f : Q → ℝ → V → V) (q : Q) (args : A) : Prop :=
  ∀ (x : Q → V) (X : Q →L[ℝ] V), HasFDerivAt x X q → ∀ tSpan saveAt : List ℝ,
    TrackedOutcome q (fun p => odeintFixed (pureField (f p)) (x p) tSpan (solver p) saveAt args)
      (autogradOdeint f q (x q, X) tSpan tsolver saveAt args)

theorem fixedLoop_tracked {q : Q} {step : Q → V → ℝ → ℝ → Except PyErr (StepOut V)}
    {tstep : Traced Q V → ℝ → ℝ → Except PyErr (StepOut (Traced Q V))} {φ : Q → V → ℝ → ℝ → V} {Φ : Traced Q V → ℝ → ℝ → Traced Q V}
    (h1 : ∀ p x t dt, ∃ k e, step p x t dt = .ok (.three k (φ p x t dt) e))
    (h2 : ∀ x t dt, ∃ k e, tstep x t dt = .ok (.three k (Φ x t dt) e))
    (h3 : ∀ (x : Q → V) (y : Traced Q V) (t dt : ℝ), Tracks q x y → Tracks q (fun p => φ p (x p) t dt) (Φ y t dt))
    (isclose : ℝ → ℝ → Bool) (ts saveAt : List ℝ) (fuel steps : ℕ) (t dt : ℝ) (x : Q → V) (y : Traced Q V) (hx : Tracks q x y)
    (rows : List (Q → V)) (trows : List (Traced Q V)) (hr : List.Forall₂ (Tracks q) rows trows) :
    (∃ e, (∀ p, fixedLoop isclose (step p) ts saveAt fuel steps t dt (x p) (rows.map fun row => row p) = .error e) ∧
      fixedLoop isclose tstep ts saveAt fuel steps t dt y trows = .error e) ∨
    ∃ (rows' : List (Q → V)) (trows' : List (Traced Q V)),
      (∀ p, fixedLoop isclose (step p) ts saveAt fuel steps t dt (x p) (rows.map fun row => row p) =
        .ok (rows'.map fun row => row p)) ∧
      fixedLoop isclose tstep ts saveAt fuel steps t dt y trows = .ok trows' ∧ List.Forall₂ (Tracks q) rows' trows' := by
  induction fuel generalizing steps t dt x y rows trows with
  | zero => exact Or.inr ⟨rows, trows, fun p => rfl, rfl, hr⟩
  | succ fuel ih =>
    by_cases hs : steps ≤ ts.length - 1
    swap
    · refine Or.inr ⟨rows, trows, fun p => ?_, ?_, hr⟩
      · rw [fixedLoop, if_neg hs]
        rfl
      · rw [fixedLoop, if_neg hs]
        rfl
    have hy := h3 x y t dt hx
    obtain ⟨k, e, hk⟩ := h2 y t dt
    obtain ⟨rows2, trows2, hr2, e1, e2⟩ : ∃ (rows2 : List (Q → V)) (trows2 : List (Traced Q V)), List.Forall₂ (Tracks q) rows2 trows2 ∧
        (∀ p, (if closeCount isclose (t + dt) saveAt ≠ 0 then (rows.map fun row => row p) ++ [φ p (x p) t dt]
          else rows.map fun row => row p) = rows2.map fun row => row p) ∧
        (if closeCount isclose (t + dt) saveAt ≠ 0 then trows ++ [Φ y t dt] else trows) = trows2 := by
      by_cases hc : closeCount isclose (t + dt) saveAt ≠ 0
      · exact ⟨rows ++ [fun p => φ p (x p) t dt], trows ++ [Φ y t dt], List.rel_append hr (.cons hy .nil), fun p => by simp [hc],
          by rw [if_pos hc]⟩
      · exact ⟨rows, trows, hr, fun p => by rw [if_neg hc], by rw [if_neg hc]⟩
    obtain ⟨g, hg⟩ : ∃ g : Except PyErr ℝ, (if steps < ts.length - 1 then
        (do let tn ← getItem ts (steps + 1); pure (tn - (t + dt))) else pure dt) = g := ⟨_, rfl⟩
    have l1 : ∀ p, fixedLoop isclose (step p) ts saveAt (fuel + 1) steps t dt (x p) (rows.map fun row => row p) =
        g.bind fun dt' => fixedLoop isclose (step p) ts saveAt fuel (steps + 1) (t + dt) dt' (φ p (x p) t dt)
          (rows2.map fun row => row p) := by
      intro p
      obtain ⟨k, e, hk⟩ := h1 p (x p) t dt
      rw [fixedLoop, if_pos hs, hk, ← e1 p, ← hg]
      by_cases hd : steps < ts.length - 1
      · cases hgi : getItem (m := Except PyErr) ts (steps + 1) with
        | error e' => simp only [StepOut.unpack3, bind, Except.bind, pure, Except.pure, if_pos hd, hgi]
        | ok tn => simp only [StepOut.unpack3, bind, Except.bind, pure, Except.pure, if_pos hd, hgi]
      · simp only [StepOut.unpack3, bind, Except.bind, pure, Except.pure, if_neg hd]
    have l2 : fixedLoop isclose tstep ts saveAt (fuel + 1) steps t dt y trows =
        g.bind fun dt' => fixedLoop isclose tstep ts saveAt fuel (steps + 1) (t + dt) dt' (Φ y t dt) trows2 := by
      rw [fixedLoop, if_pos hs, hk, ← e2, ← hg]
      by_cases hd : steps < ts.length - 1
      · cases hgi : getItem (m := Except PyErr) ts (steps + 1) with
        | error e' => simp only [StepOut.unpack3, bind, Except.bind, pure, Except.pure, if_pos hd, hgi]
        | ok tn => simp only [StepOut.unpack3, bind, Except.bind, pure, Except.pure, if_pos hd, hgi]
      · simp only [StepOut.unpack3, bind, Except.bind, pure, Except.pure, if_neg hd]
    cases g with
    | error e => exact Or.inl ⟨e, fun p => by rw [l1]; rfl, by rw [l2]; rfl⟩
    | ok dt' =>
      rcases ih (steps + 1) (t + dt) dt' (fun p => φ p (x p) t dt) (Φ y t dt) hy rows2 trows2 hr2 with ⟨e, a, b⟩ | ⟨r, tr, a, b, c⟩
      · exact Or.inl ⟨e, fun p => by rw [l1]; exact a p, by rw [l2]; exact b⟩
      · exact Or.inr ⟨r, tr, fun p => by rw [l1]; exact a p, by rw [l2]; exact b, c⟩

theorem StepTracked.run_saved {solver : Q → Solver (Except PyErr) ℝ V A} {tsolver : Solver (Except PyErr) ℝ (Traced Q V) A}
    {f : Q → ℝ → V → V} {q : Q} {args : A} (h : StepTracked solver tsolver f q args)
    {x : Q → V} {X : Q →L[ℝ] V} (hx : HasFDerivAt x X q) (ts saveAt : List ℝ) :
    TrackedOutcome q (fun p => fixedOdeint torchIsclose (fun x t dt => (solver p).step (pureField (f p)) x t dt none args) (x p) ts saveAt)
      (fixedOdeint torchIsclose (fun x t dt => tsolver.step (pureField (tracedField f q)) x t dt none args) (x q, X) ts saveAt) := by
  obtain ⟨φ, Φ, h1, h2, h3⟩ := h
  unfold fixedOdeint
  generalize (if saveAt.length = 0 then ts else saveAt) = sa
  simp only
  by_cases hall : (sa.all fun t => closeCount torchIsclose t sa == 1) = true
  swap
  · simp only [if_neg hall]
    exact Or.inl ⟨.assertionError, fun p => rfl, rfl⟩
  simp only [if_pos hall]
  cases h0 : getItem (m := Except PyErr) ts 0 with
  | error e => exact Or.inl ⟨e, fun p => rfl, rfl⟩
  | ok t =>
    cases ht1 : getItem (m := Except PyErr) ts 1 with
    | error e => exact Or.inl ⟨e, fun p => rfl, rfl⟩
    | ok t1 =>
      have hx0 : Tracks q x ((x q, X) : Traced Q V) := ⟨rfl, hx⟩
      obtain ⟨rows, trows, hr, e1, e2⟩ : ∃ (rows : List (Q → V)) (trows : List (Traced Q V)), List.Forall₂ (Tracks q) rows trows ∧
          (∀ p, (if closeCount torchIsclose t sa ≠ 0 then [x p] else []) = rows.map fun row => row p) ∧
          (if closeCount torchIsclose t sa ≠ 0 then [((x q, X) : Traced Q V)] else []) = trows := by
        by_cases hc : closeCount torchIsclose t sa ≠ 0
        · exact ⟨[x], [(x q, X)], .cons hx0 .nil, fun p => by rw [if_pos hc]; rfl, by rw [if_pos hc]⟩
        · exact ⟨[], [], .nil, fun p => by rw [if_neg hc]; rfl, by rw [if_neg hc]⟩
      simp only [bind, Except.bind, e1, e2]
      rcases fixedLoop_tracked (fun p => h1 p) h2 h3 torchIsclose ts sa ts.length 1 t (t1 - t) x (x q, X) hx0 rows trows hr with
        ⟨e, a, b⟩ | ⟨r, tr, a, b, c⟩
      · simp only [a, b]
        exact Or.inl ⟨e, fun p => rfl, rfl⟩
      · simp only [a, b]
        cases c with
        | nil => exact Or.inl ⟨.indexError, fun p => rfl, rfl⟩
        | cons c cs => exact Or.inr ⟨sa, _, _, fun p => rfl, rfl, .cons c cs⟩

theorem backpropExactSaved {solver : Q → Solver (Except PyErr) ℝ V A} {tsolver : Solver (Except PyErr) ℝ (Traced Q V) A} {args : A}
    {q : Q} (h : ∀ f : Q → ℝ → V → V, DifferentiableField f q → StepTracked solver tsolver f q args) {f : Q → ℝ → V → V}
    (hf : DifferentiableField f q) : BackpropExactSaved solver tsolver f q args := by
  intro x X hx ts saveAt
  match ts with
  | [] => exact Or.inl ⟨.indexError, fun p => rfl, rfl⟩
  | [t0] => exact Or.inl ⟨.indexError, fun p => rfl, rfl⟩
  | t0 :: t1 :: rest =>
    by_cases hdir : t1 < t0
    · have := (h _ hf.reverse).run_saved hx ((t0 :: t1 :: rest).map (fun t => -t)) saveAt
      rw [tracedField_reverse] at this
      simp only [autogradOdeint, odeintFixed_backward _ _ _ hdir]
      exact this
    · simp only [autogradOdeint, odeintFixed_forward _ _ _ (not_lt.1 hdir)]
      exact (h _ hf).run_saved hx (t0 :: t1 :: rest) saveAt

/-- **C130** for all grids and all `save_at`: the run in the graph raises what the run without raises, and otherwise records value and
derivative of every returned row. -/
theorem C130_save_at {f g : Q → ℝ → V → V} {q : Q} (hf : DifferentiableField f q) (hg : DifferentiableField g q) (args : A) :
    BackpropExactSaved (fun _ => eulerSolver (Except PyErr) ℝ V A) (eulerSolver (Except PyErr) ℝ (Traced Q V) A) f q args ∧
      BackpropExactSaved (fun _ => midpointSolver (Except PyErr) ℝ V A) (midpointSolver (Except PyErr) ℝ (Traced Q V) A) f q args ∧
      BackpropExactSaved (fun _ => rk4Solver (Except PyErr) ℝ V A) (rk4Solver (Except PyErr) ℝ (Traced Q V) A) f q args ∧
      BackpropExactSaved (fun p => hyperEulerSolver (Except PyErr) ℝ V A (pureField (g p)))
        (hyperEulerSolver (Except PyErr) ℝ (Traced Q V) A (pureField (tracedField g q))) f q args ∧
      BackpropExactSaved (fun p => hyperMidpointSolver (Except PyErr) ℝ V A (pureField (g p)))
        (hyperMidpointSolver (Except PyErr) ℝ (Traced Q V) A (pureField (tracedField g q))) f q args ∧
      BackpropExactSaved (fun p => hyperRk4Solver (Except PyErr) ℝ V A (pureField (g p)))
        (hyperRk4Solver (Except PyErr) ℝ (Traced Q V) A (pureField (tracedField g q))) f q args :=
  ⟨backpropExactSaved (fun _ hf => euler_tracked hf args) hf, backpropExactSaved (fun _ hf => midpoint_tracked hf args) hf,
    backpropExactSaved (fun _ hf => rk4_tracked hf args) hf,
    backpropExactSaved (fun _ hf => hyper_tracked hg (euler_tracked hf args)) hf,
    backpropExactSaved (fun _ hf => hyper_tracked hg (midpoint_tracked hf args)) hf,
    backpropExactSaved (fun _ hf => hyper_tracked hg (rk4_tracked hf args)) hf⟩

/-- Non-vacuity: `x' = -θ x²` from `x(0) = 1 + θ`, at `θ = 1/2`. -/
example : DifferentiableField (fun (θ t : ℝ) (x : ℝ) => -θ * x ^ 2) (1 / 2) ∧
    HasFDerivAt (fun θ : ℝ => 1 + θ) (ContinuousLinearMap.id ℝ ℝ) (1 / 2) :=
  ⟨fun t x => by fun_prop, (hasFDerivAt_id (1 / 2 : ℝ)).const_add 1⟩

end

/-! ### The implicit Euler solver -/

section implicit

variable {Q A : Type} [NormedAddCommGroup Q] [NormedSpace ℝ Q]

theorem fixedLoop_leaves {V : Type} [NormedAddCommGroup V] [NormedSpace ℝ V]
    {step : Traced Q V → ℝ → ℝ → Except PyErr (StepOut (Traced Q V))} (hs : ∀ x t dt r, step x t dt = .ok r → r.newState.2 = 0)
    (isclose : ℝ → ℝ → Bool) (ts saveAt : List ℝ) (fuel steps : ℕ) (t dt : ℝ) (x : Traced Q V) (sol sol' : List (Traced Q V))
    (h : fixedLoop isclose step ts saveAt fuel steps t dt x sol = .ok sol') : ∃ l, sol' = sol ++ l ∧ ∀ y ∈ l, y.2 = 0 := by
  induction fuel generalizing steps t dt x sol with
  | zero =>
    cases h
    exact ⟨[], by simp, by simp⟩
  | succ fuel ih =>
    rw [fixedLoop] at h
    split at h
    · cases hr : step x t dt with
      | error e =>
        rw [hr] at h
        cases h
      | ok r =>
        rw [hr] at h
        cases r with
        | four => cases h
        | three k y e =>
          simp only [StepOut.unpack3, bind, Except.bind, pure, Except.pure] at h
          have hy : y.2 = 0 := hs x t dt _ hr
          have key : ∀ dt', fixedLoop isclose step ts saveAt fuel (steps + 1) (t + dt) dt' y
              (if closeCount isclose (t + dt) saveAt ≠ 0 then sol ++ [y] else sol) = .ok sol' →
              ∃ l, sol' = sol ++ l ∧ ∀ y ∈ l, y.2 = 0 := by
            intro dt' h'
            obtain ⟨l, hl, hl0⟩ := ih _ _ _ _ _ h'
            by_cases hc : closeCount isclose (t + dt) saveAt ≠ 0
            · rw [if_pos hc] at hl
              refine ⟨y :: l, by simp [hl], ?_⟩
              intro z hz
              rcases List.mem_cons.1 hz with rfl | hz
              · exact hy
              · exact hl0 z hz
            · rw [if_neg hc] at hl
              exact ⟨l, hl, hl0⟩
          by_cases hd : steps < ts.length - 1
          · rw [if_pos hd] at h
            cases hg : getItem (m := Except PyErr) ts (steps + 1) with
            | error e =>
              rw [hg] at h
              cases h
            | ok tn =>
              rw [hg] at h
              exact key _ h
          · rw [if_neg hd] at h
            exact key _ h
    · cases h
      exact ⟨[], by simp, by simp⟩

/-- **C130**, refuted for `ieuler`: whatever the field, the inputs, the minimiser and the grid, no returned state but the initial one
depends on the inputs in the graph. `backward` gives zero (in PyTorch: no) gradients. -/
theorem C130_ieuler_refuted {ι : Type} [Fintype ι] (minimise : ((ι → ℝ) → Except PyErr ℝ) → (ι → ℝ) → Except PyErr (ι → ℝ))
    (f : Q → ℝ → (ι → ℝ) → (ι → ℝ)) (q : Q) (x : Traced Q (ι → ℝ)) (tSpan saveAt : List ℝ) (args : A) (ts : List ℝ)
    (sol : List (Traced Q (ι → ℝ)))
    (h : autogradOdeint f q x tSpan (tracedImplicitEuler minimise) saveAt args = .ok (ts, sol)) :
    ∃ l, (sol = l ∨ sol = x :: l) ∧ ∀ y ∈ l, y.2 = 0 := by
  have hs : ∀ (g : ℝ → Traced Q (ι → ℝ) → Except PyErr (Traced Q (ι → ℝ))) (x : Traced Q (ι → ℝ)) (t dt : ℝ) r,
      (tracedImplicitEuler minimise).step g x t dt none args = .ok r → r.newState.2 = 0 := by
    intro g x t dt r hr
    simp only [tracedImplicitEuler, bind, Except.bind, pure, Except.pure] at hr
    split at hr
    · cases hr
    · cases hr
      rfl
  have key : ∀ (g : ℝ → Traced Q (ι → ℝ) → Except PyErr (Traced Q (ι → ℝ))) (ts' : List ℝ),
      fixedOdeint torchIsclose (fun x t dt => (tracedImplicitEuler minimise).step g x t dt none args) x ts' saveAt = .ok (ts, sol) →
      ∃ l, (sol = l ∨ sol = x :: l) ∧ ∀ y ∈ l, y.2 = 0 := by
    intro g ts' h
    unfold fixedOdeint at h
    generalize (if saveAt.length = 0 then ts' else saveAt) = sa at h
    simp only at h
    split at h
    · cases h0 : getItem (m := Except PyErr) ts' 0 with
      | error e => rw [h0] at h; cases h
      | ok t =>
        cases h1 : getItem (m := Except PyErr) ts' 1 with
        | error e => rw [h0, h1] at h; cases h
        | ok t1 =>
          simp only [h0, h1, bind, Except.bind] at h
          split at h
          · cases h
          · rename_i sol' hl
            split at h
            · cases h
            · cases h
              obtain ⟨l, hl1, hl2⟩ := fixedLoop_leaves (hs g) _ _ _ _ _ _ _ _ _ _ hl
              refine ⟨l, ?_, hl2⟩
              rw [hl1]
              split
              · exact Or.inr rfl
              · exact Or.inl rfl
    · cases h
  rw [autogradOdeint, odeintFixed] at h
  cases hd : odeintDirection (m := Except PyErr) (pureField (tracedField f q)) tSpan with
  | error e => rw [hd] at h; cases h
  | ok r =>
    rw [hd] at h
    exact key r.1 r.2 h

/-- The loop commutes with a map of states with which the step commutes. -/
theorem fixedLoop_project {W U : Type} (h : W → U) {tstep : W → ℝ → ℝ → Except PyErr (StepOut W)}
    {step : U → ℝ → ℝ → Except PyErr (StepOut U)}
    (hs : ∀ y t dt, (∃ e, tstep y t dt = .error e ∧ step (h y) t dt = .error e) ∨
      ∃ z, tstep y t dt = .ok (.three none z none) ∧ step (h y) t dt = .ok (.three none (h z) none))
    (isclose : ℝ → ℝ → Bool) (ts saveAt : List ℝ) (fuel steps : ℕ) (t dt : ℝ) (y : W) (rows : List W) :
    (fixedLoop isclose tstep ts saveAt fuel steps t dt y rows).map (List.map h) =
      fixedLoop isclose step ts saveAt fuel steps t dt (h y) (rows.map h) := by
  induction fuel generalizing steps t dt y rows with
  | zero => rfl
  | succ fuel ih =>
    by_cases hst : steps ≤ ts.length - 1
    swap
    · rw [fixedLoop, fixedLoop, if_neg hst, if_neg hst]
      rfl
    rw [fixedLoop, fixedLoop, if_pos hst, if_pos hst]
    rcases hs y t dt with ⟨e, a, b⟩ | ⟨z, a, b⟩
    · rw [a, b]
      rfl
    · rw [a, b]
      have hrows : (if closeCount isclose (t + dt) saveAt ≠ 0 then rows.map h ++ [h z] else rows.map h) =
          (if closeCount isclose (t + dt) saveAt ≠ 0 then rows ++ [z] else rows).map h := by
        split <;> simp
      simp only [StepOut.unpack3, bind, Except.bind, pure, Except.pure, hrows]
      by_cases hd : steps < ts.length - 1
      · simp only [if_pos hd]
        cases getItem (m := Except PyErr) ts (steps + 1) with
        | error e' => rfl
        | ok tn => exact ih _ _ _ _ _
      · simp only [if_neg hd]
        exact ih _ _ _ _ _

/-- The values of `ieuler` in the graph are those of `ieuler`, errors included. -/
theorem C130_ieuler_values {ι : Type} [Fintype ι] (minimise : ((ι → ℝ) → Except PyErr ℝ) → (ι → ℝ) → Except PyErr (ι → ℝ))
    (f : Q → ℝ → (ι → ℝ) → (ι → ℝ)) (q : Q) (x : Traced Q (ι → ℝ)) (tSpan saveAt : List ℝ) (args : A) :
    (autogradOdeint f q x tSpan (tracedImplicitEuler minimise) saveAt args).map (fun r => (r.1, r.2.map Prod.fst)) =
      odeintFixed (pureField (f q)) x.1 tSpan (implicitEulerSolver minimise) saveAt args := by
  have key : ∀ (g : ℝ → Traced Q (ι → ℝ) → Except PyErr (Traced Q (ι → ℝ))) (g' : ℝ → (ι → ℝ) → Except PyErr (ι → ℝ)),
      (∀ t z, (do let r ← g t (leaf z); pure r.1) = g' t z) → ∀ ts : List ℝ,
      (fixedOdeint torchIsclose (fun x t dt => (tracedImplicitEuler minimise).step g x t dt none args) x ts saveAt).map
          (fun r => (r.1, r.2.map Prod.fst)) =
        fixedOdeint torchIsclose (fun x t dt => (implicitEulerSolver minimise).step g' x t dt none args) x.1 ts saveAt := by
    intro g g' hg ts
    have hs : ∀ (y : Traced Q (ι → ℝ)) t dt,
        (∃ e, (tracedImplicitEuler minimise).step g y t dt none args = .error e ∧
          (implicitEulerSolver minimise).step g' y.1 t dt none args = .error e) ∨
        ∃ z : Traced Q (ι → ℝ), (tracedImplicitEuler minimise).step g y t dt none args = .ok (.three none z none) ∧
          (implicitEulerSolver minimise).step g' y.1 t dt none args = .ok (.three none z.1 none) := by
      intro y t dt
      have hr : (fun t z => do let r ← g t (leaf z); pure r.1) = g' := funext fun t => funext fun z => hg t z
      simp only [tracedImplicitEuler, implicitEulerSolver, hr]
      cases minimise (ieulerResidual g' y.1 t dt) y.1 with
      | error e => exact Or.inl ⟨e, rfl, rfl⟩
      | ok z => exact Or.inr ⟨leaf z, rfl, rfl⟩
    unfold fixedOdeint
    generalize (if saveAt.length = 0 then ts else saveAt) = sa
    simp only
    by_cases hall : (sa.all fun t => closeCount torchIsclose t sa == 1) = true
    swap
    · simp only [if_neg hall]
      rfl
    simp only [if_pos hall]
    cases getItem (m := Except PyErr) ts 0 with
    | error e => rfl
    | ok t =>
      cases getItem (m := Except PyErr) ts 1 with
      | error e => rfl
      | ok t1 =>
        have hl := fixedLoop_project (tstep := fun x t dt => (tracedImplicitEuler minimise).step g x t dt none args)
          (step := fun x t dt => (implicitEulerSolver minimise).step g' x t dt none args) Prod.fst hs torchIsclose ts sa ts.length 1 t (t1 - t) x
          (if closeCount torchIsclose t sa ≠ 0 then [x] else [])
        have hrows : (if closeCount torchIsclose t sa ≠ 0 then [x] else []).map Prod.fst =
            if closeCount torchIsclose t sa ≠ 0 then [x.1] else [] := by
          split <;> rfl
        rw [hrows] at hl
        simp only [bind, Except.bind]
        rw [← hl]
        generalize fixedLoop torchIsclose (fun x t dt => (tracedImplicitEuler minimise).step g x t dt none args) ts sa ts.length 1 t
          (t1 - t) x (if closeCount torchIsclose t sa ≠ 0 then [x] else []) = r
        cases r with
        | error e => rfl
        | ok l => cases l <;> rfl
  match tSpan with
  | [] => rfl
  | [t0] => rfl
  | t0 :: t1 :: rest =>
    by_cases hdir : t1 < t0
    · simp only [autogradOdeint, odeintFixed_backward _ _ _ hdir]
      exact key _ _ (fun t z => rfl) _
    · simp only [autogradOdeint, odeintFixed_forward _ _ _ (not_lt.1 hdir)]
      exact key _ _ (fun t z => rfl) _

/-- The procedure finds a zero of the residual if there is one. -/
def SolvesResidual {ι : Type} (minimise : ((ι → ℝ) → Except PyErr ℝ) → (ι → ℝ) → Except PyErr (ι → ℝ)) : Prop :=
  ∀ cl x, (∃ z, cl z = .ok 0) → ∃ z, minimise cl x = .ok z ∧ cl z = .ok 0

open Classical in
example {ι : Type} : SolvesResidual (ι := ι) fun cl x => if h : ∃ z, cl z = .ok 0 then .ok h.choose else .ok x :=
  fun cl x h => ⟨h.choose, by simp [h], h.choose_spec⟩

/-- **C130**, refuted for `ieuler` also if the minimiser is exact: the solution of `x' = θ` depends on the parameter `θ`, and in the
graph it does not. -/
theorem C130_ieuler_exact_refuted (minimise : ((Unit → ℝ) → Except PyErr ℝ) → (Unit → ℝ) → Except PyErr (Unit → ℝ))
    (hm : SolvesResidual minimise) (q : ℝ) (args : A) :
    ¬ BackpropExact (fun _ => implicitEulerSolver minimise) (tracedImplicitEuler minimise) (fun (θ : ℝ) (_ : ℝ) (_ : Unit → ℝ) _ => θ) q args := by
  intro h
  have hsep : Separated [(0 : ℝ), 1] := by
    simp only [Separated, Close, List.pairwise_cons, List.mem_cons, List.not_mem_nil, or_false, forall_eq, false_imp_iff,
      implies_true, List.Pairwise.nil, and_true]
    norm_num
  obtain ⟨ts, sol, tsol, h1, h2, h3, h4⟩ := h (fun _ _ => 0) 0 (hasFDerivAt_const _ _) 0 1 [] hsep
  have hst : ∀ θ : ℝ, SteppedBy (implicitEulerSolver minimise) (fun (_ : ℝ) (_ : Unit → ℝ) _ => θ) args
      (fun x t dt _ => x () + dt * θ) := by
    intro θ x t dt
    obtain ⟨z, hz, hz0⟩ := hm (ieulerResidual (pureField fun (_ : ℝ) (_ : Unit → ℝ) _ => θ) x t dt) x
      ⟨fun _ => x () + dt * θ, by simp [ieulerResidual, pureField, bind, Except.bind, pure, Except.pure]⟩
    refine ⟨none, none, ?_⟩
    have hzv : z = fun _ => x () + dt * θ := by
      simp only [ieulerResidual, pureField, bind, Except.bind, pure, Except.pure, Except.ok.injEq, Finset.univ_unique,
        PUnit.default_eq_unit, Finset.sum_singleton] at hz0
      funext u
      have := pow_eq_zero_iff (two_ne_zero) |>.1 hz0
      cases u
      linarith
    simp only [implicitEulerSolver, hz, bind, Except.bind, pure, Except.pure, hzv]
  have hrun : ∀ θ : ℝ, sol θ = [fun _ => 0, fun _ => θ] := by
    intro θ
    have hr := h1 θ
    rw [odeintFixed_forward _ _ _ zero_le_one, fixedOdeint_default _ (pure ()) _ (hst θ).tick _ _ (by simp) hsep, tickN_pure] at hr
    have hr' : (Except.ok ([(0 : ℝ), 1], gridStates (fun (x : Unit → ℝ) (_ dt : ℝ) _ => x () + dt * θ) (fun _ => 0) [0, 1]) :
        Except PyErr _) = .ok (ts, sol θ) := hr
    have := (Prod.mk.inj (Except.ok.inj hr')).2
    rw [← this]
    simp [gridStates]
  obtain ⟨y, hy⟩ : ∃ y, tsol[1]? = some y := by
    rw [← Option.isSome_iff_exists, isSome_getElem?]
    simp [h3]
  obtain ⟨-, row, hrow, hd⟩ := h4 1 y hy
  have hrow' : row = fun θ _ => θ := by
    funext θ
    have := hrow θ
    rw [hrun] at this
    exact (Option.some.inj this).symm
  obtain ⟨l, hl, hl0⟩ := C130_ieuler_refuted minimise _ q _ _ _ args ts tsol h2
  have hy0 : y.2 = 0 := by
    rcases hl with rfl | rfl
    · exact hl0 y (List.mem_of_getElem? hy)
    · exact hl0 y (List.mem_of_getElem? (by simpa using hy))
  rw [hy0, hrow'] at hd
  have h5 : HasFDerivAt (fun θ : ℝ => fun _ : Unit => θ) (ContinuousLinearMap.pi fun _ => ContinuousLinearMap.id ℝ ℝ) q :=
    hasFDerivAt_pi.2 fun _ => hasFDerivAt_id q
  have h6 := hd.unique h5
  have := congrFun (congrArg (fun F : ℝ →L[ℝ] (Unit → ℝ) => F 1) h6) ()
  simp at this

end implicit

end Torchdyn
