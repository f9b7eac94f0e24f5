import Verif.Model.MshootingCall
import Verif.Props.Shooting
import Verif.Props.OdeintCall

/-!
C118: `odeint_mshooting` as it is called (/repo/torchdyn/numerics/odeint.py:153-179, /repo/torchdyn/numerics/solvers/templates.py:67-81):
solvers by name and as objects, coarse and fine methods by name and as objects.
-/

set_option linter.unusedSectionVars false

namespace Torchdyn

open Spec

section

variable {A ι : Type} [Fintype ι]

/-- The classes of the explicit fixed-step solvers; `ieuler` and `alf` as given. -/
noncomputable def builtinFamily (other : SolverClass → SolverFamily (Except PyErr) ℝ A) : SolverClass → SolverFamily (Except PyErr) ℝ A
  | .euler => eulerFamily ℝ A
  | .midpoint => midpointFamily ℝ A
  | .rungeKutta4 => rk4Family ℝ A
  | .dormandPrince45 => fun W _ _ => dopri5Solver (Except PyErr) ℝ W A
  | .tsitouras45 => fun W _ _ => tsit5Solver (Except PyErr) ℝ W A
  | c => other c

variable (family : SolverClass → SolverFamily (Except PyErr) ℝ A) (vjp : List ℝ → (ι → ℝ) → (ι → ℝ) → (ι → ℝ))
  (minimise : (List (ι → ℝ) → Except PyErr ℝ) → List (ι → ℝ) → Except PyErr (List (ι → ℝ))) (fuel : Nat)
  (f : ℝ → (ι → ℝ) → Except PyErr (ι → ℝ)) (fs : (k : Nat) → ℝ → (Fin k → ι → ℝ) → Except PyErr (Fin k → ι → ℝ))
  (x : ι → ℝ) (tSpan : List ℝ) (B0 : Option (List (ι → ℝ))) (fineSteps maxiter : Nat) (args : A)

theorem odeint_fixed {C : Solver (Except PyErr) ℝ (ι → ℝ) A} (hC : C.adaptive = false) (atol rtol : ℝ) (sel : Finset ι) :
    odeint fuel f x tSpan C atol rtol false false [] args sel = (odeintFixed f x tSpan C [] args).map some := by
  unfold odeint odeintFixed
  simp only [bind, Except.bind, hC, Bool.false_eq_true, if_false, ite_self]
  cases odeintDirection f tSpan with
  | error e => rfl
  | ok p =>
    simp only
    cases fixedOdeint torchIsclose (fun x t dt => C.step p.1 x t dt none args) x p.2 [] <;> rfl

/-- **C118 (parareal by names).** `odeint_mshooting` with an `MSZero` object whose methods are the documented names of fixed-step solvers
runs parareal with the solvers of these names (to which C38, C39, C40 and C113 apply), whatever the field. -/
theorem C118_methods {coarse fine : String} {c1 c2 : SolverClass} (h1 : coarse ∈ documentedNames c1) (h2 : fine ∈ documentedNames c2)
    (hfix : (family c1 (ι → ℝ)).adaptive = false) :
    ∃ s, MsSolver.make family (.named .msZero) (.inl coarse) (.inl fine) = .ok s ∧
      odeintMshootingCall family vjp minimise fuel f fs x tSpan (.inr s) B0 fineSteps maxiter args =
        (odeintMsZero (family c1) (family c2) args f fs x tSpan B0 fineSteps maxiter).map some := by
  have e1 := ((C68_names coarse).1 c1).2 h1
  have e2 := ((C68_names fine).1 c2).2 h2
  refine ⟨⟨.named .msZero, some (family c1), some (family c2)⟩, by simp [MsSolver.make, methodAttr, e1, e2], ?_⟩
  unfold odeintMshootingCall odeintMsZero
  simp only [msSolverOf, syncDevice, attr, odeint_fixed fuel f x tSpan args hfix]
  cases B0 with
  | some B =>
    simp only [bind, Except.bind, pure, Except.pure]
    cases msZero (family c1) (family c2) args f fs tSpan B fineSteps maxiter <;> rfl
  | none =>
    simp only [bind, Except.bind, pure, Except.pure]
    cases odeintFixed f x tSpan (family c1 (ι → ℝ)) [] args with
    | error e => rfl
    | ok p =>
      simp only [Except.map, Option.map]
      cases msZero (family c1) (family c2) args f fs tSpan p.2 fineSteps maxiter <;> rfl

/-- **C118 (solver names).** The documented names of `MSZero` run parareal with coarse method `euler` and fine method `rk4`. -/
theorem C118_names (other : SolverClass → SolverFamily (Except PyErr) ℝ A) (name : String)
    (hn : name ∈ ["mszero", "zero", "parareal"]) :
    odeintMshootingCall (builtinFamily other) vjp minimise fuel f fs x tSpan (.inl name) B0 fineSteps maxiter args =
      (odeintMsZero (eulerFamily ℝ A) (rk4Family ℝ A) args f fs x tSpan B0 fineSteps maxiter).map some := by
  obtain ⟨s, hs, e⟩ := C118_methods (builtinFamily other) vjp minimise fuel f fs x tSpan B0 fineSteps maxiter args
    (coarse := "euler") (fine := "rk4") (c1 := .euler) (c2 := .rungeKutta4) (by decide) (by decide) rfl
  have hname := ((C68_ms_names name).1 .msZero).2 hn
  rw [show builtinFamily other .euler = eulerFamily ℝ A from rfl, show builtinFamily other .rungeKutta4 = rk4Family ℝ A from rfl] at e
  rw [← e]
  unfold odeintMshootingCall
  simp only [msSolverOf, hname, defaultMethods, hs]

/-- **C118 (methods of named solvers).** The object behind a documented name has the coarse method `euler`; the fine method is `euler`
for the parallel implicit Euler method and `rk4` for the others. -/
theorem C118_attributes (c : MSSolverClass) (name : String) (hn : name ∈ documentedMsNames c) :
    ∃ s, msSolverOf family (.inl name) = .ok s ∧ s.cls = .named c ∧ s.coarse = some (family .euler) ∧
      s.fine = some (family (if c = .parallelImplicitEuler then .euler else .rungeKutta4)) := by
  have hname := ((C68_ms_names name).1 c).2 hn
  have e1 : strToSolver "euler" = .ok .euler := ((C68_names "euler").1 .euler).2 (by decide)
  have e2 : strToSolver "rk4" = .ok .rungeKutta4 := ((C68_names "rk4").1 .rungeKutta4).2 (by decide)
  unfold msSolverOf
  simp only [hname]
  cases c <;> simp [MsSolver.make, defaultMethods, methodAttr, e1, e2]

/-- **C118 (unknown names).** A name that is not documented raises `KeyError`: for the parallel solver before anything else happens, for
its methods already in the constructor. -/
theorem C118_unknown :
    (∀ name, (∀ c, name ∉ documentedMsNames c) →
      odeintMshootingCall family vjp minimise fuel f fs x tSpan (.inl name) B0 fineSteps maxiter args = .error .keyError) ∧
    ∀ (cls : MsClass) (name : String), (∀ c, name ∉ documentedNames c) → ∀ method,
      MsSolver.make family cls (.inl name) method = .error .keyError ∧
      ((∀ n, method = .inl n → ∃ c, n ∈ documentedNames c) → MsSolver.make family cls method (.inl name) = .error .keyError) := by
  refine ⟨fun name h => ?_, fun cls name h method => ?_⟩
  · have := ((C68_ms_names name).2 .keyError).2 ⟨rfl, h⟩
    unfold odeintMshootingCall
    simp only [msSolverOf, this]
    rfl
  · have e := ((C68_names name).2 .keyError).2 ⟨rfl, h⟩
    refine ⟨by simp [MsSolver.make, methodAttr, e], fun hm => ?_⟩
    cases method with
    | inl n =>
      obtain ⟨c, hc⟩ := hm n rfl
      have e' := ((C68_names n).1 c).2 hc
      simp [MsSolver.make, methodAttr, e, e']
    | inr S => simp [MsSolver.make, methodAttr, e]

/-- **C118 (methods given as objects).** A method given as a solver object is dropped by the constructor: it raises nothing, but every
call of `odeint_mshooting` with such a solver raises `AttributeError`, before the field is evaluated, unless the solver is a
`ParallelImplicitEuler` and a guess `B0` is given. -/
theorem C118_objects (cls : MsClass) (coarse fine : String ⊕ SolverFamily (Except PyErr) ℝ A) {s : MsSolver (Except PyErr) A}
    (hs : MsSolver.make family cls coarse fine = .ok s) :
    (cls ≠ .named .parallelImplicitEuler → (coarse.isRight ∨ fine.isRight) →
      odeintMshootingCall family vjp minimise fuel f fs x tSpan (.inr s) B0 fineSteps maxiter args = .error .attributeError) ∧
    (cls = .named .parallelImplicitEuler → coarse.isRight →
      odeintMshootingCall family vjp minimise fuel f fs x tSpan (.inr s) none fineSteps maxiter args = .error .attributeError ∧
      ∀ B, odeintMshootingCall family vjp minimise fuel f fs x tSpan (.inr s) (some B) fineSteps maxiter args =
        (pieRootSolve minimise f x tSpan B).map fun B => some (tSpan, B)) := by
  have hattr : ∀ S : SolverFamily (Except PyErr) ℝ A, methodAttr family (.inr S) = .ok none := fun _ => rfl
  refine ⟨fun hc ho => ?_, fun hc ho => ?_⟩
  · have hs' : s.cls = cls ∧ (s.coarse = none ∨ s.fine = none) := by
      unfold MsSolver.make at hs
      cases h1 : methodAttr family coarse with
      | error e => rw [h1] at hs; cases hs
      | ok c =>
        cases h2 : methodAttr family fine with
        | error e => rw [h1, h2] at hs; cases hs
        | ok d =>
          rw [h1, h2] at hs
          cases hs
          refine ⟨rfl, ?_⟩
          rcases ho with ho | ho
          · obtain ⟨S, rfl⟩ := Sum.isRight_iff.1 ho
            exact .inl (by cases h1; rfl)
          · obtain ⟨S, rfl⟩ := Sum.isRight_iff.1 ho
            exact .inr (by cases h2; rfl)
    obtain ⟨e1, e2⟩ := hs'
    have hsync : ∀ k : Unit → Except PyErr (Option (List ℝ × List (ι → ℝ))), syncDevice s k = .error .attributeError := by
      intro k
      unfold syncDevice
      rw [e1]
      rcases cls with _ | c
      · rcases e2 with e | e
        · simp only [e, attr]; rfl
        · cases h : s.coarse <;> simp only [e, attr] <;> rfl
      · cases c
        · rcases e2 with e | e
          · simp only [e, attr]; rfl
          · cases h : s.coarse <;> simp only [e, attr] <;> rfl
        · rcases e2 with e | e
          · simp only [e, attr]; rfl
          · cases h : s.coarse <;> simp only [e, attr] <;> rfl
        · exact absurd rfl hc
    unfold odeintMshootingCall
    simp only [msSolverOf]
    exact hsync _
  · subst hc
    obtain ⟨S, rfl⟩ := Sum.isRight_iff.1 ho
    unfold MsSolver.make at hs
    rw [hattr] at hs
    cases h2 : methodAttr family fine with
    | error e => rw [h2] at hs; cases hs
    | ok d =>
      rw [h2] at hs
      cases hs
      refine ⟨rfl, fun B => ?_⟩
      unfold odeintMshootingCall
      simp only [msSolverOf, syncDevice, bind, Except.bind, pure, Except.pure]
      cases pieRootSolve minimise f x tSpan B <;> rfl

/-- A solver class whose steps return four values, like those of the adaptive solvers. -/
def FourValues (S : SolverFamily (Except PyErr) ℝ A) : Prop :=
  ∀ (W : Type) [AddCommGroup W] [Module ℝ W] (f : ℝ → W → Except PyErr W) (x : W) (t dt : ℝ) (args : A) (k e : Option W) (y : W),
    (S W).step f x t dt none args ≠ .ok (.three k y e)

theorem endState_four {S : SolverFamily (Except PyErr) ℝ A} (hS : FourValues S) {W : Type} [AddCommGroup W] [Module ℝ W]
    (g : ℝ → W → Except PyErr W) (y : W) (sub : List ℝ) : ∃ e, endState S args g y sub = .error e := by
  unfold endState fixedOdeint
  simp only [List.length_nil, if_true]
  by_cases ha : sub.all (fun t => closeCount torchIsclose t sub == 1) = true
  · rw [if_pos ha]
    match sub with
    | [] => exact ⟨.indexError, rfl⟩
    | [_] => exact ⟨.indexError, rfl⟩
    | a :: b :: l =>
      have hu : ∀ sol : List W, ∃ e, fixedLoop torchIsclose (fun x t dt => (S W).step g x t dt none args) (a :: b :: l) (a :: b :: l)
          (a :: b :: l).length 1 a (b - a) y sol = .error e := by
        intro sol
        simp only [List.length_cons, fixedLoop, bind, Except.bind]
        rw [if_pos (by omega)]
        cases h : (S W).step g y a (b - a) none args with
        | error e => exact ⟨e, rfl⟩
        | ok r =>
          cases r with
          | three k z e => exact absurd h (hS W g y a (b - a) args k e z)
          | four k z e st => exact ⟨.valueError, rfl⟩
      simp only [getItem, List.getElem?_cons_zero, List.getElem?_cons_succ, bind, Except.bind, pure, Except.pure]
      split
      · rename_i h
        exact ⟨_, rfl⟩
      · rename_i r h
        obtain ⟨e, he⟩ := hu (if closeCount torchIsclose a (a :: b :: l) ≠ 0 then [y] else [])
        rw [he] at h
        cases h
  · rw [if_neg ha]
    exact ⟨.assertionError, rfl⟩

theorem endStates_four {S : SolverFamily (Except PyErr) ℝ A} (hS : FourValues S) (rows : List (ι → ℝ)) (sub : List ℝ) :
    ∃ e, endStates S args fs rows sub = .error e := by
  obtain ⟨e, h⟩ := endState_four args hS (fs rows.length) (fun r => rows.get r) sub
  exact ⟨e, by unfold endStates; rw [h]; rfl⟩

theorem fourValues_dopri5 : FourValues (A := A) fun W _ _ => dopri5Solver (Except PyErr) ℝ W A := by
  intro W _ _ f x t dt args k e y h
  simp only [dopri5Solver, dopri5Step, rk7Step, bind, Except.bind] at h
  repeat' split at h
  all_goals first | exact Except.noConfusion h | (cases h)

theorem fourValues_tsit5 : FourValues (A := A) fun W _ _ => tsit5Solver (Except PyErr) ℝ W A := by
  intro W _ _ f x t dt args k e y h
  simp only [tsit5Solver, tsit5Step, rk7Step, bind, Except.bind] at h
  repeat' split at h
  all_goals first | exact Except.noConfusion h | (cases h)

/-- **C118 (adaptive methods).** With an adaptive coarse or fine method (`dopri5`, `tsit5` under any of their names) no call of
`odeint_mshooting` with `MSZero` returns, and with an adaptive fine method none with `MSBackward` does: the fixed-step loop cannot unpack
the four values of an adaptive step. -/
theorem C118_adaptive (other : SolverClass → SolverFamily (Except PyErr) ℝ A) {coarse fine : String} {c1 c2 c : SolverClass}
    (h1 : coarse ∈ documentedNames c1) (h2 : fine ∈ documentedNames c2) (hc : c ∈ [SolverClass.dormandPrince45, .tsitouras45])
    (cls : MSSolverClass) (hcls : cls = .msZero ∧ (c1 = c ∨ c2 = c) ∨ cls = .msBackward ∧ c2 = c) :
    ∃ s, MsSolver.make (builtinFamily other) (.named cls) (.inl coarse) (.inl fine) = .ok s ∧
      ∀ r, odeintMshootingCall (builtinFamily other) vjp minimise fuel f fs x tSpan (.inr s) B0 fineSteps maxiter args ≠ .ok (some r) := by
  have e1 := ((C68_names coarse).1 c1).2 h1
  have e2 := ((C68_names fine).1 c2).2 h2
  have hfour : FourValues (builtinFamily other c) := by
    simp only [List.mem_cons, List.not_mem_nil, or_false] at hc
    rcases hc with rfl | rfl
    · exact fourValues_dopri5
    · exact fourValues_tsit5
  refine ⟨⟨.named cls, some (builtinFamily other c1), some (builtinFamily other c2)⟩, by simp [MsSolver.make, methodAttr, e1, e2], ?_⟩
  have hroot : ∀ B, (cls = .msZero → ∃ e, msZero (builtinFamily other c1) (builtinFamily other c2) args f fs tSpan B fineSteps maxiter =
      .error e) ∧ (cls = .msBackward → ∃ e, msBackward vjp (builtinFamily other c2) args fs tSpan B fineSteps maxiter = .error e) := by
    intro B
    refine ⟨fun h => ?_, fun h => ?_⟩
    · have hor : c1 = c ∨ c2 = c := by
        rcases hcls with ⟨_, h'⟩ | ⟨h', _⟩
        · exact h'
        · rw [h] at h'; cases h'
      unfold msZero
      simp only [bind, Except.bind, getItem]
      cases tSpan[1]? with
      | none => exact ⟨_, rfl⟩
      | some t1 =>
        cases tSpan[0]? with
        | none => exact ⟨_, rfl⟩
        | some t0 =>
          simp only [pure, Except.pure, msZeroLoop, bind, Except.bind]
          rcases hor with rfl | rfl
          · obtain ⟨e, he⟩ := endStates_four fs args hfour (B.drop (0 + 1 - 1)) (linspace0 (t1 - t0) fineSteps)
            rw [he]
            exact ⟨e, rfl⟩
          · obtain ⟨e, he⟩ := endStates_four fs args hfour (B.drop (0 + 1 - 1)) (linspace0 (t1 - t0) fineSteps)
            rw [he]
            cases endStates (builtinFamily other c1) args fs (B.drop (0 + 1 - 1)) (linspace0 (t1 - t0) fineSteps) with
            | error e' => exact ⟨e', rfl⟩
            | ok _ => exact ⟨e, rfl⟩
    · have hc2 : c2 = c := by
        rcases hcls with ⟨h', _⟩ | ⟨_, h'⟩
        · rw [h] at h'; cases h'
        · exact h'
      subst hc2
      unfold msBackward
      simp only [bind, Except.bind, getItem]
      cases tSpan[1]? with
      | none => exact ⟨_, rfl⟩
      | some t1 =>
        cases tSpan[0]? with
        | none => exact ⟨_, rfl⟩
        | some t0 =>
          simp only [pure, Except.pure, msBackwardLoop, bind, Except.bind]
          obtain ⟨e, he⟩ := endStates_four fs args hfour (B.drop (0 + 1 - 1)) (linspace0 (t1 - t0) fineSteps)
          rw [he]
          exact ⟨e, rfl⟩
  intro r
  unfold odeintMshootingCall
  rcases hcls with ⟨rfl, _⟩ | ⟨rfl, _⟩
  · have hr := fun B => (hroot B).1 rfl
    simp only [msSolverOf, syncDevice, attr]
    cases B0 with
    | some B =>
      obtain ⟨e, he⟩ := hr B
      simp only [bind, Except.bind, pure, Except.pure, he]
      exact fun h => by cases h
    | none =>
      simp only [bind, Except.bind, pure, Except.pure]
      cases odeint fuel f x tSpan (builtinFamily other c1 (ι → ℝ)) (1 / 1000) (1 / 1000) false false [] args Finset.univ with
      | error e => exact fun h => by cases h
      | ok o =>
        cases o with
        | none => exact fun h => by cases h
        | some p =>
          obtain ⟨e, he⟩ := hr p.2
          simp only [Option.map, he]
          exact fun h => by cases h
  · have hr := fun B => (hroot B).2 rfl
    simp only [msSolverOf, syncDevice, attr]
    cases B0 with
    | some B =>
      obtain ⟨e, he⟩ := hr B
      simp only [bind, Except.bind, pure, Except.pure, he]
      exact fun h => by cases h
    | none =>
      simp only [bind, Except.bind, pure, Except.pure]
      cases odeint fuel f x tSpan (builtinFamily other c1 (ι → ℝ)) (1 / 1000) (1 / 1000) false false [] args Finset.univ with
      | error e => exact fun h => by cases h
      | ok o =>
        cases o with
        | none => exact fun h => by cases h
        | some p =>
          obtain ⟨e, he⟩ := hr p.2
          simp only [Option.map, he]
          exact fun h => by cases h

/-- **C118 (`MSForward`).** An `MSForward` object never integrates: once a first guess is there, the call of `root_solve` is a
`TypeError`. -/
theorem C118_forward (coarse fine : String) {c1 c2 : SolverClass} (h1 : coarse ∈ documentedNames c1) (h2 : fine ∈ documentedNames c2) :
    ∃ s, MsSolver.make family .forward (.inl coarse) (.inl fine) = .ok s ∧
      (∀ B, odeintMshootingCall family vjp minimise fuel f fs x tSpan (.inr s) (some B) fineSteps maxiter args = .error .typeError) ∧
      ∀ r, odeintMshootingCall family vjp minimise fuel f fs x tSpan (.inr s) B0 fineSteps maxiter args ≠ .ok (some r) := by
  have e1 := ((C68_names coarse).1 c1).2 h1
  have e2 := ((C68_names fine).1 c2).2 h2
  refine ⟨⟨.forward, some (family c1), some (family c2)⟩, by simp [MsSolver.make, methodAttr, e1, e2], fun B => rfl, fun r => ?_⟩
  cases B0 with
  | some B => intro h; cases h
  | none =>
    unfold odeintMshootingCall
    simp only [msSolverOf, syncDevice, attr, bind, Except.bind]
    cases odeint fuel f x tSpan (family c1 (ι → ℝ)) (1 / 1000) (1 / 1000) false false [] args Finset.univ with
    | error e => intro h; cases h
    | ok o =>
      cases o with
      | none => intro h; cases h
      | some p => intro h; cases h

end

/-- The methods of `C118_methods` and `C118_names` exist, and such a call returns: parareal by name on `x' = x`, over three times. -/
example (other : SolverClass → SolverFamily (Except PyErr) ℝ Unit) (vjp : List ℝ → (Fin 1 → ℝ) → (Fin 1 → ℝ) → (Fin 1 → ℝ))
    (minimise : (List (Fin 1 → ℝ) → Except PyErr ℝ) → List (Fin 1 → ℝ) → Except PyErr (List (Fin 1 → ℝ))) (x : Fin 1 → ℝ) :
    ∃ B, odeintMshootingCall (builtinFamily other) vjp minimise 0 (fun t x => .ok ((fun _ x => x : ℝ → (Fin 1 → ℝ) → Fin 1 → ℝ) t x))
      (rowField (fun (_ : ℝ) (x : Fin 1 → ℝ) => x)) x [0, 1, 2] (.inl "parareal") none 2 1 () = .ok (some ([0, 1, 2], B)) ∧
      B[2]? = some ((fun y => propagate (rk4Update fun (_ : ℝ) (x : Fin 1 → ℝ) => x) y (uniformGrid 0 (1 - 0) 2))^[2] x) := by
  obtain ⟨B, e, hl, h⟩ := C38_default_guess (euler_rowwise (fun (_ : ℝ) (x : Fin 1 → ℝ) => x) ()) (rk4_rowwise (fun (_ : ℝ) (x : Fin 1 → ℝ) => x) ()) x 0 1 [2]
    zero_le_one (by norm_num [Separated, Close]) 2 1 le_rfl (by norm_num [Separated, uniformGrid, Close, List.range_succ]) (by norm_num)
  refine ⟨B, ?_, h 2 le_rfl (by norm_num)⟩
  rw [C118_names _ _ _ _ _ _ _ _ _ _ _ _ "parareal" (by decide), e]
  rfl

end Torchdyn
