import Verif.Model.SystemModules
import Verif.Props.NeuralModels

/-!
Property C138: which of the bundled systems can be used in `odeint`, `ODEProblem` and `NeuralODE`.
-/

set_option linter.unusedSimpArgs false
set_option linter.unusedSectionVars false

namespace Spec

open Torchdyn

/-- The field never returns a value. -/
def NeverReturns {K V : Type} (f : K → V → Except PyErr V) : Prop := ∀ t x, ∃ e, f t x = .error e

/-- A solver that evaluates the field before it returns anything: adaptive, or one whose step raises with the field. -/
def Evaluates {V A : Type} (s : Solver (Except PyErr) ℝ V A) : Prop :=
  s.adaptive = true ∨ ∀ f, NeverReturns f → ∀ x t dt args, ∃ e, s.step f x t dt none args = .error e

end Spec

namespace Torchdyn

open Spec

section

variable {A β : Type} [Fintype β]

/-- The Runge–Kutta solvers of the library evaluate the field. -/
theorem evaluates_library {ι : Type} (A : Type) : Evaluates (eulerSolver (Except PyErr) ℝ (ι → ℝ) A) ∧
    Evaluates (midpointSolver (Except PyErr) ℝ (ι → ℝ) A) ∧ Evaluates (rk4Solver (Except PyErr) ℝ (ι → ℝ) A) ∧
    Evaluates (dopri5Solver (Except PyErr) ℝ (ι → ℝ) A) ∧ Evaluates (tsit5Solver (Except PyErr) ℝ (ι → ℝ) A) := by
  refine ⟨.inr ?_, .inr ?_, .inr ?_, .inl rfl, .inl rfl⟩ <;> intro f hf x t dt args <;> obtain ⟨e, he⟩ := hf t x <;>
    refine ⟨e, ?_⟩
  · simp [eulerSolver, eulerStep, firstStage, he, bind, Except.bind]
  · simp [midpointSolver, midpointStep, firstStage, he, bind, Except.bind]
  · simp [rk4Solver, rk4Step, firstStage, he, bind, Except.bind]

theorem neverReturns_reverse {K V : Type} [Neg K] [Neg V] {f : K → V → Except PyErr V} (hf : NeverReturns f) :
    NeverReturns (reverseField f) := by
  intro t x
  obtain ⟨e, he⟩ := hf (-t) x
  exact ⟨e, by simp [reverseField, he, bind, Except.bind]⟩

/-- `odeint` with a field that never returns raises on every grid. -/
theorem odeint_neverReturns {ι : Type} [Fintype ι] (fuel : Nat) (f : ℝ → (ι → ℝ) → Except PyErr (ι → ℝ))
    (hf : NeverReturns f) (x : ι → ℝ) (tSpan : List ℝ) (solver : Solver (Except PyErr) ℝ (ι → ℝ) A)
    (hs : Evaluates solver) (atol rtol : ℝ) (ui rae : Bool) (saveAt : List ℝ) (args : A) (sel : Finset ι) :
    ∃ e, odeint fuel f x tSpan solver atol rtol ui rae saveAt args sel = .error e := by
  rcases tSpan with _ | ⟨t0, _ | ⟨t1, rest⟩⟩
  · exact ⟨.indexError, rfl⟩
  · exact ⟨.indexError, rfl⟩
  have hdir : ∃ f' ts0 ts1 r, NeverReturns f' ∧
      odeintDirection f (t0 :: t1 :: rest) = .ok (f', ts0 :: ts1 :: r) := by
    by_cases h : t1 < t0
    · exact ⟨reverseField f, -t0, -t1, rest.map (fun t => -t), neverReturns_reverse hf, by
        simp [odeintDirection, getItem, bind, Except.bind, pure, Except.pure, h]⟩
    · exact ⟨f, t0, t1, rest, hf, by simp [odeintDirection, getItem, bind, Except.bind, pure, Except.pure, h]⟩
  obtain ⟨f', ts0, ts1, r, hf', hd⟩ := hdir
  unfold odeint
  rw [hd]
  simp only [bind, Except.bind]
  by_cases ha : solver.adaptive = true
  · obtain ⟨e, he⟩ := hf' ts0 x
    exact ⟨e, by simp [ha, getItem, pure, Except.pure, he]⟩
  · rcases hs with h | h
    · exact absurd h ha
    · obtain ⟨e, he⟩ := h f' hf' x ts0 (ts1 - ts0) args
      have : ∃ e, fixedOdeint torchIsclose (fun x t dt => solver.step f' x t dt none args) x (ts0 :: ts1 :: r) saveAt =
          .error e := by
        unfold fixedOdeint
        simp only []
        generalize (if saveAt.length = 0 then (ts0 :: ts1 :: r) else saveAt) = sa
        split
        · refine ⟨e, ?_⟩
          simp [getItem, bind, Except.bind, pure, Except.pure, fixedLoop, he]
        · exact ⟨.assertionError, rfl⟩
      obtain ⟨e', he'⟩ := this
      exact ⟨e', by simp [ha, he']⟩

theorem odeProblemOdeint_neverReturns {ι : Type} [Fintype ι] (fuel : Nat) (sensalg : String)
    (f : ℝ → (ι → ℝ) → Except PyErr (ι → ℝ)) (hf : NeverReturns f) (x : ι → ℝ) (tSpan : List ℝ)
    (solver : Solver (Except PyErr) ℝ (ι → ℝ) A) (hs : Evaluates solver) (atol rtol : ℝ) (ui : Bool) (saveAt : List ℝ)
    (args : A) (isEmpty : A → Bool) (empty : A) :
    ∃ e, odeProblemOdeint fuel sensalg f x tSpan solver atol rtol ui saveAt args isEmpty empty = .error e := by
  have gen : ∀ rae, ∃ e, genericOdeint fuel f x tSpan solver atol rtol ui rae (.inr args) isEmpty empty = .error e := by
    intro rae
    unfold genericOdeint
    simp only []
    split
    · exact odeint_neverReturns fuel f hf x tSpan solver hs atol rtol ui rae [] empty Finset.univ
    · cases h : odeintDirection f tSpan with
      | error e => exact ⟨e, rfl⟩
      | ok r => exact ⟨.runtimeError, rfl⟩
  unfold odeProblemOdeint
  split
  · exact odeint_neverReturns fuel f hf x tSpan solver hs atol rtol ui false saveAt args Finset.univ
  split
  · exact gen false
  split
  · exact gen true
  · exact ⟨.typeError, rfl⟩

/-- A function with two required parameters cannot be called with the state alone. -/
theorem PyFn.onlyX_typeError {K C : Type} (f : PyFn K C A) (subs : List (SubMod K C)) (p q : Param) (rest : List Param)
    (h : f.params = p :: q :: rest) (hq : q.hasDefault = false) (hne : p.name ≠ q.name) (x : List C) :
    f.call subs (.onlyX x) = .error .typeError := by
  obtain ⟨params, kw, body⟩ := f
  simp only at h
  subst h
  simp [PyFn.call, PyFn.bind, FieldCall.pos, FieldCall.kw, bind, Except.bind, hq, hne, throw, throwThe,
    MonadExceptOf.throw]
  rfl

/-- **C138 is false** of every user field, plain or module, whose time parameter has another name than `t`: with two required
parameters, none of them called `t`, the field is taken for a field of the state alone, and every call of the standardized
field raises `TypeError`, whatever the field computes. -/
theorem C138_renamed_time_refuted {K C : Type} (empty : A) (f : PyFn K C A) (subs : List (SubMod K C)) (p q : Param)
    (rest : List Param) (h : f.params = p :: q :: rest) (hq : q.hasDefault = false) (hne : p.name ≠ q.name)
    (hT : f.hasT = false) (t : K) (x : List C) :
    ((standardize (.fn f)).call empty (.tx t x)).2 = .error .typeError ∧
    ((standardize (.module f subs)).call empty (.tx t x)).2 = .error .typeError := by
  constructor
  · rw [C50_no_time_partial empty (.fn f) hT]
    exact f.onlyX_typeError [] p q rest h hq hne x
  · rw [C50_no_time_partial empty (.module f subs) hT]
    exact f.onlyX_typeError subs p q rest h hq hne x

/-- A system called with time and state computes its function. -/
theorem SystemName.forward_tx {w : Nat} (s : SystemName) (g : ℝ → (Fin w × β → ℝ) → (Fin w × β → ℝ))
    (subs : List (SubMod ℝ (β → ℝ))) (t : ℝ) (y : Fin w × β → ℝ) :
    (s.forward (A := A) g).call subs (.tx t (columns y)) = .ok (columns (g t y)) := by
  have hl : (columns y).length = w := by simp [columns]
  have hy : (fun p : Fin w × β => (columns y).get (p.1.cast hl.symm) p.2) = y := by
    funext p
    simp [columns]
    rfl
  have hb : ∃ a b, (s.forward (A := A) g).bind (.tx t (columns y)) = .ok [(a, .time t), (b, .state (columns y))] := by
    cases s <;> exact ⟨_, _, rfl⟩
  obtain ⟨a, b, hb⟩ := hb
  unfold PyFn.call
  rw [hb]
  simp only [bind, Except.bind, SystemName.forward, List.map_cons, List.map_nil]
  rw [dif_pos hl, hy]

theorem SystemName.forward_txArgs {w : Nat} (s : SystemName) (hs : s.varKw = true)
    (g : ℝ → (Fin w × β → ℝ) → (Fin w × β → ℝ)) (subs : List (SubMod ℝ (β → ℝ))) (t : ℝ) (y : Fin w × β → ℝ) (a : A) :
    (s.forward (A := A) g).call subs (.txArgs t (columns y) a) = .ok (columns (g t y)) := by
  have hl : (columns y).length = w := by simp [columns]
  have hy : (fun p : Fin w × β => (columns y).get (p.1.cast hl.symm) p.2) = y := by
    funext p
    simp [columns]
    rfl
  have hb : ∃ n k l, (s.forward (A := A) g).bind (.txArgs t (columns y) a) =
      .ok [(n, .time t), (k, .state (columns y)), (l, .dict a)] := by
    cases s <;> first | exact ⟨_, _, _, rfl⟩ | simp [SystemName.varKw] at hs
  obtain ⟨n, k, l, hb⟩ := hb
  unfold PyFn.call
  rw [hb]
  simp only [bind, Except.bind, SystemName.forward, List.map_cons, List.map_nil]
  rw [dif_pos hl, hy]

/-- An object whose calls give the columns of `g t y` is the field `g`. -/
theorem batchField_eq {w : Nat} (empty : A) (o : Obj ℝ (β → ℝ) A) (g : ℝ → (Fin w × β → ℝ) → (Fin w × β → ℝ))
    (h : ∀ t y, (o.call empty (.tx t (columns y))).2 = .ok (columns (g t y))) : o.batchField empty w = pureField g := by
  funext t y
  have hcols : List.ofFn (fun (i : Fin w) (b : β) => y (i, b)) = columns y := rfl
  unfold Obj.batchField Obj.field
  rw [hcols, h]
  have hl : (columns (g t y)).length = w := by simp [columns]
  simp only [hl, dite_true, Except.map, pureField, pure, Except.pure]
  congr 1
  funext p
  simp [columns]
  rfl

theorem batchField_neverReturns {w : Nat} (empty : A) (o : Obj ℝ (β → ℝ) A)
    (h : ∀ t x, (o.call empty (.tx t x)).2 = .error .typeError) : NeverReturns (o.batchField empty w) := by
  intro t x
  exact ⟨.typeError, by simp [Obj.batchField, Obj.field, h, Except.map]⟩

/-- **C138** for `odeint`, which calls the field by position: each of the twelve systems, handed to `odeint` itself, is the
field it is documented to be. -/
theorem C138_odeint {w : Nat} (s : SystemName) (subs : Nat) (g : ℝ → (Fin w × β → ℝ) → (Fin w × β → ℝ)) (empty : A) :
    (s.obj (A := A) subs g).batchField empty w = pureField g := by
  apply batchField_eq
  intro t y
  exact s.forward_tx g _ t y

/-- **C138 (partial: for `Lorenz` and `VanDerPol` only, see `C138_refuted`).** In an `ODEProblem` the two systems whose
parameter is called `t` are integrated as by `odeint`, under `autograd`: the results are equal, exceptions and
non-termination included. -/
theorem C138_ode_problem_partial {w : Nat} (s : SystemName) (hs : s = .lorenz ∨ s = .vanDerPol) (subs : Nat)
    (g : ℝ → (Fin w × β → ℝ) → (Fin w × β → ℝ)) (fuel : Nat) (empty : A) (isEmpty : A → Bool)
    (cfg : NeuralOdeCfg A (Fin w × β)) (x : Fin w × β → ℝ) (tSpan saveAt : List ℝ) (args : A) :
    odeProblemSolve fuel empty isEmpty (s.obj subs g) cfg "autograd" x tSpan saveAt args =
      odeint fuel (pureField g) x tSpan cfg.solver cfg.atol cfg.rtol cfg.useInterp false saveAt args Finset.univ := by
  have hst : standardize (s.obj (A := A) subs g) = s.obj subs g := by
    rcases hs with rfl | rfl <;> rfl
  unfold odeProblemSolve
  rw [hst, C138_odeint]
  simp [odeProblemOdeint]

theorem prep_plain (x : List (β → ℝ)) (k : Nat) : ∀ e,
    (prepSubs x e (List.replicate k (⟨none, false, none⟩ : SubMod ℝ (β → ℝ)))).2 =
      List.replicate k ⟨none, false, none⟩ := by
  induction k with
  | zero => intro e; rfl
  | succ k ih => intro e; simp [List.replicate_succ, prepSubs, SubMod.prep, ih]

/-- **C138 (partial: for `Lorenz` and `VanDerPol` only, see `C138_refuted`).** The same inside a `NeuralODE`. -/
theorem C138_neural_ode_partial {w : Nat} (s : SystemName) (hs : s = .lorenz ∨ s = .vanDerPol) (subs : Nat)
    (g : ℝ → (Fin w × β → ℝ) → (Fin w × β → ℝ)) (fuel : Nat) (empty : A) (isEmpty : A → Bool)
    (cfg : NeuralOdeCfg A (Fin w × β)) (x : Fin w × β → ℝ) (tSpan : Option (List ℝ)) (saveAt : List ℝ) (args : A) :
    ((NeuralOde.make (s.obj subs g) 1 none "autograd").forward fuel empty isEmpty cfg x tSpan saveAt args).2 =
      (odeint fuel (pureField g) x (tSpan.getD [0, 1]) cfg.solver cfg.atol cfg.rtol cfg.useInterp false saveAt args
        Finset.univ).map (Option.map fun r => if cfg.returnTEval then .pair r.1 r.2 else .sol r.2) := by
  have hT : s.varKw = true := by rcases hs with rfl | rfl <;> rfl
  have hst : standardize (s.obj (A := A) subs g) = s.obj subs g := by
    rcases hs with rfl | rfl <;> rfl
  have hts : ((NeuralOde.make (s.obj (A := A) subs g) 1 none "autograd").prep defaultSpan (columns x) tSpan).2 =
      tSpan.getD [0, 1] := by cases tSpan <;> rfl
  have hvf : ((NeuralOde.make (s.obj (A := A) subs g) 1 none "autograd").prep defaultSpan (columns x) tSpan).1.vf =
      .defunc (s.obj subs g) 1 none (some "autograd") 0 := by
    have e : standardize (s.obj (A := A) subs g) 1 true = .defunc (s.obj subs g) 1 none none 0 := by
      rcases hs with rfl | rfl <;> rfl
    unfold NeuralOde.make
    rw [e]
    simp [NeuralOde.prep, standardize, Obj.isModule, Obj.hasT, Obj.prep, SystemName.obj, prep_plain]
  have hf : ((NeuralOde.make (s.obj (A := A) subs g) 1 none "autograd").prep defaultSpan (columns x) tSpan).1.vf.batchField
      empty w = pureField g := by
    rw [hvf]
    apply batchField_eq
    intro t y
    simp [Obj.call, Obj.callAt, FieldCall.unpack, pure, Except.pure, SystemName.obj, Obj.isModule,
      SystemName.forward_txArgs s hT]
  unfold NeuralOde.forward
  simp only [hf, hts]
  have hsens : (NeuralOde.make (s.obj (A := A) subs g) 1 none "autograd").sensitivity = "autograd" := rfl
  rw [hsens]
  simp only [odeProblemOdeint, if_true, bind, Except.bind, pure, Except.pure]
  cases odeint fuel (pureField g) x (tSpan.getD [0, 1]) cfg.solver cfg.atol cfg.rtol cfg.useInterp false saveAt args
    Finset.univ <;> rfl

/-- **C138 is false** of the other ten systems: their first parameter is called `s`, so `standardize_vf_call_signature`
takes them for fields of the state alone. No call of an `ODEProblem` or a `NeuralODE` around one of them returns, whatever
the state, grid, tolerances, interpolator, sensitivity method and (Runge–Kutta) solver, although `odeint` integrates the
same object (`C138_odeint`). Each evaluation of the field raises `TypeError`. -/
theorem C138_refuted {w : Nat} (s : SystemName) (hs : s ≠ .lorenz ∧ s ≠ .vanDerPol) (subs : Nat)
    (g : ℝ → (Fin w × β → ℝ) → (Fin w × β → ℝ)) (fuel : Nat) (empty : A) (isEmpty : A → Bool)
    (cfg : NeuralOdeCfg A (Fin w × β)) (hsol : Evaluates cfg.solver) (sensalg : String) (x : Fin w × β → ℝ) (saveAt : List ℝ)
    (args : A) :
    (∀ t y, ((standardize (s.obj (A := A) subs g)).call empty (.tx t y)).2 = .error .typeError) ∧
    (∀ tSpan, ∃ e, odeProblemSolve fuel empty isEmpty (s.obj subs g) cfg sensalg x tSpan saveAt args = .error e) ∧
    (∀ tSpan, ∃ e, ((NeuralOde.make (s.obj subs g) 1 none sensalg).forward fuel empty isEmpty cfg x tSpan saveAt args).2 =
      .error e) := by
  have hpar : ∃ q, q.hasDefault = false ∧ "s" ≠ q.name ∧ (s.forward (A := A) g).params = [⟨"s", false⟩, q] ∧
      (s.forward (A := A) g).hasT = false := by
    cases s <;> first
      | exact absurd rfl hs.1
      | exact absurd rfl hs.2
      | exact ⟨⟨"z", false⟩, rfl, by decide, rfl, by rfl⟩
      | exact ⟨⟨"x", false⟩, rfl, by decide, rfl, by rfl⟩
  obtain ⟨q, hq, hne, hp, hT⟩ := hpar
  have hcall : ∀ t y, ((standardize (s.obj (A := A) subs g)).call empty (.tx t y)).2 = .error .typeError := fun t y =>
    (C138_renamed_time_refuted empty (s.forward g) _ ⟨"s", false⟩ q [] hp hq hne hT t y).2
  refine ⟨hcall, fun tSpan => ?_, fun tSpan => ?_⟩
  · exact odeProblemOdeint_neverReturns fuel sensalg _ (batchField_neverReturns empty _ hcall) x tSpan _ hsol _ _ _ _ _ _ _
  · have hvf : ((NeuralOde.make (s.obj (A := A) subs g) 1 none sensalg).prep defaultSpan (columns x) tSpan).1.vf =
        .defunc (.base (s.obj subs g) false 0) 1 none (some sensalg) 0 := by
      have e : standardize (s.obj (A := A) subs g) 1 true = .defunc (.base (s.obj subs g) false 0) 1 none none 0 := by
        simp [standardize, SystemName.obj, Obj.isModule, Obj.hasT, hT]
      unfold NeuralOde.make
      rw [e]
      simp [NeuralOde.prep, standardize, Obj.isModule, Obj.hasT, Obj.prep, SystemName.obj, prep_plain]
    have hf : NeverReturns (((NeuralOde.make (s.obj (A := A) subs g) 1 none sensalg).prep defaultSpan (columns x)
        tSpan).1.vf.batchField empty w) := by
      rw [hvf]
      apply batchField_neverReturns
      intro t y
      simp [Obj.call, Obj.callAt, FieldCall.unpack, pure, Except.pure, SystemName.obj, Obj.isModule,
        (s.forward (A := A) g).onlyX_typeError _ _ q [] hp hq hne]
    unfold NeuralOde.forward
    simp only []
    obtain ⟨e, he⟩ := odeProblemOdeint_neverReturns fuel (NeuralOde.make (s.obj (A := A) subs g) 1 none sensalg).sensitivity _
      hf x ((NeuralOde.make (s.obj (A := A) subs g) 1 none sensalg).prep defaultSpan (columns x) tSpan).2 cfg.solver hsol
      cfg.atol cfg.rtol cfg.useInterp saveAt args isEmpty empty
    exact ⟨e, by rw [he]; rfl⟩

/-- The cases meet: `Lorenz` in a `NeuralODE` with `rk4` returns the states of `odeint` on the Lorenz field, and
`ODEProblem2` with `dopri5` raises where `odeint` has the field `z/2`. -/
example (fuel : Nat) (x : Fin 3 × Unit → ℝ) :
    ((NeuralOde.make (SystemName.lorenz.obj (A := Unit) 2
        (fun _ y p => lorenz (fun i => y (i, p.2)) p.1)) 1 none "autograd").forward fuel () (fun _ => true)
        ⟨rk4Solver _ ℝ _ Unit, 0, 0, false, false⟩ x (some [0, 1, 2]) [] ()).2 =
      (odeint fuel (pureField (fun _ y p => lorenz (fun i => y (i, p.2)) p.1)) x [0, 1, 2] (rk4Solver (Except PyErr) ℝ _ Unit) 0 0
        false false [] () Finset.univ).map (Option.map fun r => .sol r.2) :=
  C138_neural_ode_partial .lorenz (.inl rfl) 2 _ fuel () _ _ x _ _ _

example (fuel : Nat) (x : Fin 3 × Unit → ℝ) : ∃ e,
    ((NeuralOde.make (SystemName.odeProblem2.obj (A := Unit) (w := 3) 1 (fun s z => odeProblem2 s z)) 1 none "adjoint").forward
      fuel () (fun _ => true) ⟨dopri5Solver _ ℝ _ Unit, 1 / 1000, 1 / 1000, false, false⟩ x none [] ()).2 = .error e :=
  (C138_refuted .odeProblem2 ⟨by decide, by decide⟩ 1 _ fuel () _ _ (evaluates_library Unit).2.2.2.1 _ x [] ()).2.2 none

end

end Torchdyn
