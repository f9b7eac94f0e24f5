import Verif.Model.NeuralModels
import Verif.Props.DEFunc
import Verif.Props.Sensitivity
import Verif.Props.AdaptiveAccuracy
import Verif.Props.Sde

/-!
Properties C89 (`NeuralODE.forward` and `trajectory`) and C90 (`NeuralSDE`).
-/

set_option linter.unusedSimpArgs false
set_option linter.unusedSectionVars false

namespace Torchdyn

open Spec Set

/-! ### C89 -/

section c89

variable {A β : Type} [Fintype β]

/-- The submodules while the field is evaluated at time `t` during a run from the initial state with columns `x`: every
attribute `t` holds `t`, every attribute `_control` holds `x`. -/
def runningSubs (t : ℝ) (x : List (β → ℝ)) (subs : List (SubMod ℝ (β → ℝ))) : List (SubMod ℝ (β → ℝ)) :=
  subs.map fun s => ⟨s.t.map fun _ => some t, s.traceEstimator, s.control.map fun _ => some x⟩

/-- The user's module, run with these submodules, computes `f`. -/
def Computes {w : Nat} (fn : PyFn ℝ (β → ℝ) A) (subs : List (SubMod ℝ (β → ℝ))) (x0 : Fin w × β → ℝ)
    (f : ℝ → (Fin w × β → ℝ) → (Fin w × β → ℝ)) : Prop :=
  ∀ t y, fn.call (runningSubs t (columns x0) subs) (.onlyX (columns y)) = .ok (columns (f t y))

theorem prepSubs_plain (x : List (β → ℝ)) (subs : List (SubMod ℝ (β → ℝ)))
    (h : ∀ s ∈ subs, s.traceEstimator = false) :
    (prepSubs x 0 subs).2 = subs.map fun s => ⟨s.t, s.traceEstimator, s.control.map fun _ => some x⟩ := by
  induction subs with
  | nil => rfl
  | cons s l ih =>
    have hs : s.traceEstimator = false := h s (by simp)
    have ih := ih (fun s hs => h s (List.mem_cons_of_mem _ hs))
    obtain ⟨t, tr, c⟩ := s
    simp only at hs
    subst hs
    cases c <;> simp [prepSubs, SubMod.prep, ih]

/-- The prepared field of a `NeuralODE` of order one without integral loss. -/
theorem batchField_make (empty : A) {w : Nat} (fn : PyFn ℝ (β → ℝ) A) (subs : List (SubMod ℝ (β → ℝ)))
    (hT : fn.hasT = false) (hcnf : ∀ s ∈ subs, s.traceEstimator = false) (sens : String)
    (x0 : Fin w × β → ℝ) (f : ℝ → (Fin w × β → ℝ) → (Fin w × β → ℝ)) (hf : Computes fn subs x0 f)
    (ts : Option (List ℝ)) :
    ((NeuralOde.make (.module fn subs) 1 none sens).prep defaultSpan (columns x0) ts).1.vf.batchField empty w =
      pureField f := by
  have hvf : ((NeuralOde.make (.module fn subs) 1 none sens).prep defaultSpan (columns x0) ts).1.vf =
      (NeuralOde.make (.module fn (prepSubs (columns x0) 0 subs).2) 1 none sens).vf := by
    simp [NeuralOde.prep, NeuralOde.make, standardize, Obj.isModule, Obj.hasT, hT, Obj.prep]
  funext t y
  have hcols : List.ofFn (fun (i : Fin w) (b : β) => y (i, b)) = columns y := rfl
  rw [hvf]
  unfold Obj.batchField Obj.field
  rw [hcols, C84_seen_by_module empty fn _ hT, prepSubs_plain _ _ hcnf]
  have := hf t y
  unfold runningSubs at this
  simp only [withTimeSet, List.map_map, Function.comp_def]
  rw [this]
  have hl : (columns (f t y)).length = w := by simp [columns]
  simp only [hl, dite_true, Except.map, pureField, pure, Except.pure]
  congr 1
  funext p
  simp [columns]
  rfl

/-- **C89.** A `NeuralODE` around a user module computing `f`, at order one, without integral loss and CNFs, under
`autograd`: `forward` returns exactly what `odeint` returns for the field `f`, the given solver, tolerances, interpolator,
`save_at` and `args` — times, states, exceptions, non-termination — on `t_span`, by default `[0, 1]`. Data-control layers
of the module see the initial state, time-aware layers the current time (`Computes`). With `return_t_eval=False` the
states alone are returned. -/
theorem C89_forward (fuel : Nat) (empty : A) (isEmpty : A → Bool) {w : Nat} (cfg : NeuralOdeCfg A (Fin w × β))
    (fn : PyFn ℝ (β → ℝ) A) (subs : List (SubMod ℝ (β → ℝ))) (hT : fn.hasT = false)
    (hcnf : ∀ s ∈ subs, s.traceEstimator = false) (x : Fin w × β → ℝ)
    (f : ℝ → (Fin w × β → ℝ) → (Fin w × β → ℝ)) (hf : Computes fn subs x f) (tSpan : Option (List ℝ))
    (saveAt : List ℝ) (args : A) :
    ((NeuralOde.make (.module fn subs) 1 none "autograd").forward fuel empty isEmpty cfg x tSpan saveAt args).2 =
      (odeint fuel (pureField f) x (tSpan.getD [0, 1]) cfg.solver cfg.atol cfg.rtol cfg.useInterp false saveAt args
        Finset.univ).map (Option.map fun r => if cfg.returnTEval then .pair r.1 r.2 else .sol r.2) := by
  have hts : ((NeuralOde.make (.module fn subs) 1 none "autograd").prep defaultSpan (columns x) tSpan).2 =
      tSpan.getD [0, 1] := by cases tSpan <;> rfl
  unfold NeuralOde.forward
  simp only [batchField_make empty fn subs hT hcnf "autograd" x f hf tSpan, hts]
  have hs : (NeuralOde.make (.module fn subs) 1 none "autograd").sensitivity = "autograd" := rfl
  rw [hs]
  simp only [odeProblemOdeint, if_true, bind, Except.bind, pure, Except.pure]
  cases odeint fuel (pureField f) x (tSpan.getD [0, 1]) cfg.solver cfg.atol cfg.rtol cfg.useInterp false saveAt args
    Finset.univ <;> rfl

/-- **C89 (partial: under `autograd` without interpolator, see `C89_trajectory_refuted`).** `trajectory` returns the states
that `forward` returns without `save_at` and `args`, whatever the model (order, integral loss, CNF, data control), the
solver and the grid; exceptions and non-termination included. An interpolator does not matter for fixed-step solvers
and `tsit5`. -/
theorem C89_trajectory_partial (fuel : Nat) (empty : A) (isEmpty : A → Bool) {w : Nat}
    (cfg : NeuralOdeCfg A (Fin w × β)) (n : NeuralOde ℝ (β → ℝ) A) (hs : n.sensitivity = "autograd")
    (hi : cfg.useInterp = false ∨ cfg.solver.adaptive = false ∨ cfg.solver.isTsit5 = true)
    (x : Fin w × β → ℝ) (tSpan : Option (List ℝ)) :
    (n.trajectory fuel empty cfg x tSpan).2 =
      (n.forward fuel empty isEmpty cfg x tSpan [] empty).2.map (Option.map fun
        | .pair _ sol => sol
        | .sol sol => sol) ∧
    (n.trajectory fuel empty cfg x tSpan).1 = (n.forward fuel empty isEmpty cfg x tSpan [] empty).1 := by
  refine ⟨?_, rfl⟩
  have key : odeint fuel ((n.prep defaultSpan (columns x) tSpan).1.vf.batchField empty w) x
      (n.prep defaultSpan (columns x) tSpan).2 cfg.solver cfg.atol cfg.rtol false false [] empty Finset.univ =
      odeint fuel ((n.prep defaultSpan (columns x) tSpan).1.vf.batchField empty w) x
      (n.prep defaultSpan (columns x) tSpan).2 cfg.solver cfg.atol cfg.rtol cfg.useInterp false [] empty Finset.univ := by
    rcases hi with h | h | h
    · rw [h]
    · simp [odeint, h]
    · simp [odeint, h]
  unfold NeuralOde.trajectory NeuralOde.forward
  simp only [hs, odeProblemOdeint, if_true, key]
  cases odeint fuel ((n.prep defaultSpan (columns x) tSpan).1.vf.batchField empty w) x
      (n.prep defaultSpan (columns x) tSpan).2 cfg.solver cfg.atol cfg.rtol cfg.useInterp false [] empty Finset.univ with
  | error e => rfl
  | ok r =>
    cases r with
    | none => rfl
    | some r =>
      cases h : cfg.returnTEval <;> simp [bind, Except.bind, pure, Except.pure, Except.map, h]

/-- **C89.** The returned model is the same whatever is integrated: only the control values of the submodules have been
assigned. In particular a second call is not influenced by the first. -/
theorem C89_repeatable (fuel fuel' : Nat) (empty : A) (isEmpty : A → Bool) {w : Nat} (cfg : NeuralOdeCfg A (Fin w × β))
    (fn : PyFn ℝ (β → ℝ) A) (subs : List (SubMod ℝ (β → ℝ))) (hT : fn.hasT = false)
    (hcnf : ∀ s ∈ subs, s.traceEstimator = false) (x x' : Fin w × β → ℝ)
    (tSpan tSpan' : Option (List ℝ)) (saveAt saveAt' : List ℝ) (args args' : A) :
    (((NeuralOde.make (.module fn subs) 1 none "autograd").forward fuel empty isEmpty cfg x tSpan saveAt args).1.forward
        fuel' empty isEmpty cfg x' tSpan' saveAt' args').2 =
      ((NeuralOde.make (.module fn subs) 1 none "autograd").forward fuel' empty isEmpty cfg x' tSpan' saveAt' args').2 := by
  have hvf : ∀ ts, (((NeuralOde.make (.module fn subs) 1 none "autograd").prep defaultSpan (columns x) tSpan).1.prep
      defaultSpan (columns x') ts).1.vf =
      ((NeuralOde.make (.module fn subs) 1 none "autograd").prep defaultSpan (columns x') ts).1.vf := by
    intro ts
    simp only [NeuralOde.prep, NeuralOde.make, standardize, Obj.isModule, Obj.hasT, hT, Obj.prep, if_true, if_false,
      Bool.false_eq_true, Option.isSome_none, false_and]
    rw [prepSubs_plain _ subs hcnf, prepSubs_plain _ _ (by simpa using hcnf), prepSubs_plain _ subs hcnf]
    simp [Function.comp_def]
  have hts : ∀ ts, (((NeuralOde.make (.module fn subs) 1 none "autograd").prep defaultSpan (columns x) tSpan).1.prep
      defaultSpan (columns x') ts).2 =
      ((NeuralOde.make (.module fn subs) 1 none "autograd").prep defaultSpan (columns x') ts).2 := by
    intro ts; cases ts <;> rfl
  have hs : ((NeuralOde.make (.module fn subs) 1 none "autograd").prep defaultSpan (columns x) tSpan).1.sensitivity =
      (NeuralOde.make (.module fn subs) 1 none "autograd").sensitivity := rfl
  unfold NeuralOde.forward
  simp only [hvf, hts, hs]

/-- **C89.** End to end: a `NeuralODE` with `dopri5` around a module computing a five times continuously differentiable
field. On every increasing grid with gaps at most `h ≤ δ`, `forward` returns the grid and states within `C h^5`
of the exact solution `y` through the initial state, for all positive tolerances. -/
theorem C89_accuracy (empty : A) (isEmpty : A → Bool) {w : Nat} (fn : PyFn ℝ (β → ℝ) A)
    (subs : List (SubMod ℝ (β → ℝ))) (hT : fn.hasT = false) (hcnf : ∀ s ∈ subs, s.traceEstimator = false)
    (y : ℝ → Fin w × β → ℝ) (t0 T : ℝ) (f : ℝ → (Fin w × β → ℝ) → (Fin w × β → ℝ)) (hf : Computes fn subs (y t0) f)
    (hf5 : ContDiff ℝ 5 (fun p : ℝ × (Fin w × β → ℝ) => f p.1 p.2))
    (hy : ∀ t ∈ Icc t0 T, HasDerivWithinAt y (f t (y t)) (Icc t0 T) t) (args : A) :
    ∃ C δ, 0 < δ ∧ ∀ (t1 : ℝ) (rest : List ℝ) (h atol rtol : ℝ) (saveAt : List ℝ), h ≤ δ →
      Increasing (t0 :: t1 :: rest) → (∀ t ∈ t0 :: t1 :: rest, t ≤ T) → GapsAtMost h (t0 :: t1 :: rest) →
      0 < atol → 0 ≤ rtol →
      ∃ fuel xs, ((NeuralOde.make (.module fn subs) 1 none "autograd").forward fuel empty isEmpty
          ⟨dopri5Solver (Except PyErr) ℝ (Fin w × β → ℝ) A, atol, rtol, false, true⟩ (y t0) (some (t0 :: t1 :: rest))
          saveAt args).2 = .ok (some (.pair (t0 :: t1 :: rest) xs)) ∧ xs.length = (t0 :: t1 :: rest).length ∧
        ∀ (k : ℕ) (t : ℝ) (x : Fin w × β → ℝ), (t0 :: t1 :: rest)[k]? = some t → xs[k]? = some x →
          ‖x - y t‖ ≤ C * h ^ 5 := by
  obtain ⟨C, δ, hδ, hall⟩ := C86_dopri5_total f hf5 y t0 T hy args
  refine ⟨C, δ, hδ, fun t1 rest h atol rtol saveAt hh hinc hT' hgap hat hrt => ?_⟩
  obtain ⟨fuel, xs, hrun, hlen, herr⟩ := hall t1 rest h atol rtol saveAt Finset.univ hh hinc hT' hgap hat hrt
  refine ⟨fuel, xs, ?_, hlen, herr⟩
  rw [C89_forward fuel empty isEmpty _ fn subs hT hcnf (y t0) f hf]
  simp only [Option.getD_some]
  rw [hrun]
  rfl

end c89

/-- A module without a parameter `t` whose only submodule stores the time; its output column is `0` up to time `1/2` and `1`
afterwards. -/
noncomputable def jumpModule : PyFn ℝ (Unit → ℝ) Unit where
  params := [⟨"x", false⟩]
  varKw := false
  body subs env := match subs, env with
    | [⟨some (some t), _, _⟩], [(_, .state _)] => .ok [fun _ => if t ≤ 1 / 2 then 0 else 1]
    | _, _ => .error .runtimeError

theorem jumpModule_computes (x : Fin 1 × Unit → ℝ) :
    Computes jumpModule [⟨some none, false, none⟩] x jumpField := by
  intro t y
  simp [Computes, PyFn.call, PyFn.bind, jumpModule, runningSubs, columns, jumpField, FieldCall.pos, FieldCall.kw,
    bind, Except.bind, pure, Except.pure]

/-- C89 applied to `jumpModule` inside a `NeuralODE` with `euler`: the hypotheses are met, and two steps of size `1/2` over
the grid `0, 1/2, 1` stay at `0`, since the field is read at the left end points. -/
example : ∃ xs, ((NeuralOde.make (.module jumpModule [⟨some none, false, none⟩]) 1 none "autograd").forward 0 ()
      (fun _ => true) ⟨eulerSolver (Except PyErr) ℝ (Fin 1 × Unit → ℝ) Unit, 1, 1, false, true⟩ (fun _ => 0)
      (some [0, 1 / 2, 1]) [] ()).2 = .ok (some (.pair [0, 1 / 2, 1] xs)) ∧ xs.length = 3 ∧ xs[2]? = some 0 := by
  have hsep : Separated ([0, 1 / 2, 1] : List ℝ) := by
    simp only [Separated, Close, List.pairwise_cons, List.mem_cons, List.not_mem_nil, or_false,
      forall_eq_or_imp, forall_eq, false_implies, implies_true, List.Pairwise.nil, and_true]
    norm_num [abs_of_pos, abs_of_neg]
  obtain ⟨sol, h, hl, h0, hn⟩ := C12_euler (A := Unit) (jumpField (κ := Fin 1 × Unit)) () (fun _ => 0) 0 (1 / 2) [1]
    (by norm_num) hsep
  have h57 : odeint 0 (pureField (jumpField (κ := Fin 1 × Unit))) (fun _ => 0) [0, 1 / 2, 1]
      (eulerSolver (Except PyErr) ℝ (Fin 1 × Unit → ℝ) Unit) 1 1 false false [] () Finset.univ =
      (odeintFixed (pureField (jumpField (κ := Fin 1 × Unit))) (fun _ => 0) [0, 1 / 2, 1]
        (eulerSolver (Except PyErr) ℝ (Fin 1 × Unit → ℝ) Unit) [] ()).map some :=
    C57_autograd_partial 0 (pureField jumpField) (fun _ => 0) [0, 1 / 2, 1]
      (eulerSolver (Except PyErr) ℝ (Fin 1 × Unit → ℝ) Unit) rfl 1 1 false [] () (fun _ => true) ()
  refine ⟨sol, ?_, hl, ?_⟩
  · rw [C89_forward 0 () _ _ jumpModule _ rfl (by simp) _ jumpField (jumpModule_computes _)]
    simp only [Option.getD_some]
    rw [h57, h]
    rfl
  · have h1 := hn 0 0 (1 / 2) (fun _ => 0) rfl rfl h0
    have h2 := hn 1 (1 / 2) 1 _ rfl rfl h1
    rw [h2]
    congr 1
    funext i
    simp [jumpField]

/-- **C89 is false** of `trajectory` under `interpolated_adjoint`: with `dopri5` on `[0, 1]`, `forward` returns all
evaluation points and `trajectory` one state per requested time. -/
theorem C89_trajectory_refuted :
    let cfg : NeuralOdeCfg Unit (Fin 1 × Unit) :=
      ⟨dopri5Solver (Except PyErr) ℝ (Fin 1 × Unit → ℝ) Unit, 1 / 10000, 1 / 10000, false, true⟩
    let n : NeuralOde ℝ (Unit → ℝ) Unit :=
      NeuralOde.make (.module jumpModule [⟨some none, false, none⟩]) 1 none "interpolated_adjoint"
    ∃ fuel ts xs, (n.forward fuel () (fun _ => true) cfg (fun _ => 0) (some [0, 1]) [] ()).2 =
        .ok (some (.pair ts xs)) ∧ 2 < ts.length ∧
      ∃ fuel' xs', (n.trajectory fuel' () cfg (fun _ => 0) (some [0, 1])).2 = .ok (some xs') ∧ xs'.length = 2 := by
  intro cfg n
  have hbf := batchField_make () jumpModule [⟨some none, false, none⟩] rfl (by simp) "interpolated_adjoint"
    (fun _ : Fin 1 × Unit => 0) jumpField (jumpModule_computes _) (some [0, 1])
  have : Unique (Fin 1 × Unit) := ⟨⟨(0, ())⟩, fun _ => Subsingleton.elim _ _⟩
  obtain ⟨fuel, ts, xs, h, hlen, fuel', xs', h'⟩ := interpolated_adaptive (κ := Fin 1 × Unit)
  refine ⟨fuel, ts, xs, ?_, hlen, fuel', xs', ?_, ?_⟩
  · unfold NeuralOde.forward
    simp only [n, hbf]
    have : (odeProblemOdeint fuel "interpolated_adjoint" (pureField jumpField) (fun _ : Fin 1 × Unit => (0 : ℝ)) [0, 1]
      cfg.solver cfg.atol cfg.rtol cfg.useInterp [] () (fun _ => true) ()) = .ok (some (ts, xs)) := h
    show (odeProblemOdeint fuel "interpolated_adjoint" (pureField jumpField) (fun _ : Fin 1 × Unit => (0 : ℝ)) [0, 1]
      cfg.solver cfg.atol cfg.rtol cfg.useInterp [] () (fun _ => true) ()).bind _ = _
    rw [this]
    rfl
  · unfold NeuralOde.trajectory
    simp only [n, hbf]
    have : odeint fuel' (pureField jumpField) (fun _ : Fin 1 × Unit => (0 : ℝ)) [0, 1]
      cfg.solver cfg.atol cfg.rtol false false [] () Finset.univ = .ok (some ([0, 1], xs')) := by
      simpa [odeProblemOdeint, cfg] using h'
    show (odeint fuel' (pureField jumpField) (fun _ : Fin 1 × Unit => (0 : ℝ)) [0, 1]
      cfg.solver cfg.atol cfg.rtol false false [] () Finset.univ).bind _ = _
    rw [this]
    rfl
  · obtain ⟨r, hr, hall⟩ := C21_times (dopri5_fsalSolver ()) (jumpField (κ := Fin 1 × Unit)) (fun _ => 0) 0 1 []
      (by simp [Increasing]) (1 / 10000) (1 / 10000) false [] Finset.univ fuel'
    have h'' : odeint fuel' (pureField jumpField) (fun _ : Fin 1 × Unit => (0 : ℝ)) [0, 1]
      (dopri5Solver (Except PyErr) ℝ (Fin 1 × Unit → ℝ) Unit) (1 / 10000) (1 / 10000) false false [] () Finset.univ =
        .ok (some ([0, 1], xs')) := by
      simpa [odeProblemOdeint] using h'
    rw [h''] at hr
    cases hr
    exact (hall _ _ rfl).2.1

/-- **C89.** The solvers stored by `ODEProblem`: a name is looked up, an object kept; the adjoint solver is by default
the forward solver. -/
theorem C89_solvers {S : Type} (lookup : String → Except PyErr S) (s s' : String) (o : S) :
    odeProblemSolvers lookup (.name s) .none = (lookup s).map (fun r => (some r, some r)) ∧
    odeProblemSolvers lookup (.object o) .none = .ok (some o, some o) ∧
    odeProblemSolvers lookup (.object o) (.name s') = (lookup s').map (fun r => (some o, some r)) ∧
    odeProblemSolvers lookup (.name s) (.name s') =
      (lookup s).bind (fun r => (lookup s').map (fun r' => (some r, some r'))) := by
  refine ⟨?_, rfl, ?_, ?_⟩
  · cases h : lookup s <;> simp [odeProblemSolvers, h, bind, Except.bind, pure, Except.pure, Except.map]
  · cases h : lookup s' <;> simp [odeProblemSolvers, h, bind, Except.bind, pure, Except.pure, Except.map]
  · cases h : lookup s <;> cases h' : lookup s' <;>
      simp [odeProblemSolvers, h, h', bind, Except.bind, pure, Except.pure, Except.map]

/-- **C89 is false** of `solver_adjoint` objects, which the signature admits: constructing the problem raises `KeyError`. -/
theorem C89_solver_adjoint_refuted {S : Type} (lookup : String → Except PyErr S) (o o' : S) :
    odeProblemSolvers lookup (.object o) (.object o') = .error .keyError := rfl

/-! ### C90 -/

section c90

variable {K V A : Type} [Field K] [LinearOrder K] [IsStrictOrderedRing K] [CommRing V] [Algebra K V]

/-- **C90 (partial: a Brownian motion must be given, see `C90_default_refuted`).** A `NeuralSDE` of order one under
`autograd` with Brownian motion `bm`: `forward` returns exactly what `sdeint` returns on `t_span`, by default on the span of
the constructor. -/
theorem C90_forward_partial (sqrt : K → K) (f g : K → V → Except PyErr V) (solver noise type : String)
    (span : Option (List K)) (bm : K → K → Except PyErr V) (rte : Bool) (x : V) (tSpan : Option (List K))
    (saveAt : List K) :
    (do
      let n ← NeuralSde.make f g 1 solver noise type span "autograd" (some bm) rte
      n.forward sqrt x tSpan saveAt) =
    (sdeint sqrt (.sdeFunc ⟨f, g, some noise, some type⟩) x ((tSpan.orElse fun _ => span).getD [0, 1]) (.inl solver) bm
      saveAt).map (fun r => if rte then .pair r.1 r.2 else .sol r.2) := by
  simp only [NeuralSde.make, NeuralSde.forward, bind, Except.bind, pure, Except.pure, callBm, ne_eq, not_true, if_false,
    if_true]
  rcases tSpan with _ | ts <;> rcases span with _ | sp <;>
    simp only [Option.orElse_none, Option.orElse_some, Option.getD_some, Option.getD_none] <;>
    split <;> rename_i heq <;> simp [heq, Except.map]

/-- **C90.** With zero diffusion a `NeuralSDE` with any solver accepted by name is the `NeuralODE` with `euler`: on every
increasing grid accepted by `odeint`, `forward` returns what `odeint(..., solver='euler')` returns, whatever the Brownian
path. -/
theorem C90_no_noise (args : A) (sqrt : K → K) (f : K → V → V) (W : K → V) {solver noise type : String}
    (h : Accepts solver (some noise) (some type)) (span : Option (List K)) (x : V) (t0 t1 : K) (rest : List K)
    (hinc : (t0 :: t1 :: rest).Pairwise (· < ·)) (hsep : Separated (t0 :: t1 :: rest)) :
    (do
      let n ← NeuralSde.make (m := Except PyErr) (fun t x => pure (f t x)) (fun _ _ => pure 0) 1 solver noise type span
        "autograd" (some (pathBm W)) true
      n.forward sqrt x (some (t0 :: t1 :: rest)) []) =
    (odeintFixed (pureField f) x (t0 :: t1 :: rest) (eulerSolver (Except PyErr) K V A) [] args).map
      (fun r => .pair r.1 r.2) := by
  rw [C90_forward_partial]
  simp only [if_true]
  rw [← C43_agrees_with_odeint args sqrt f W h x t0 t1 rest hinc hsep]
  rfl

/-- **C90 is false** with the default arguments: `bm=None` is handed to the solver, and on every time span with at least
two points `forward` raises `TypeError` at the first step, for every drift and diffusion that evaluate and every solver
accepted by name. -/
theorem C90_default_refuted (sqrt : K → K) (f g : K → V → V) {solver noise type : String}
    (h : Accepts solver (some noise) (some type)) (x : V) (t0 t1 : K) (rest saveAt : List K) :
    (do
      let n ← NeuralSde.make (m := Except PyErr) (fun t x => pure (f t x)) (fun t x => pure (g t x)) 1 solver noise type
      n.forward sqrt x (some (t0 :: t1 :: rest)) saveAt) = .error .typeError := by
  have key : ∀ step : V → K → K → Except PyErr (StepOut V), (∀ x t dt, step x t dt = .error .typeError) →
      ∀ sa, fixedSdeint torchIsclose step x (t0 :: t1 :: rest) sa = .error .typeError := by
    intro step hstep sa
    simp [fixedSdeint, getItem, bind, Except.bind, pure, Except.pure, fixedLoop, hstep]
  generalize hn : some noise = noise' at h
  generalize ht : some type = type' at h
  simp only [NeuralSde.make, NeuralSde.forward, bind, Except.bind, pure, Except.pure, callBm, ne_eq, not_true, if_false,
    if_true, sdeint, checkSde, hn, ht]
  cases h with
  | euler n hmem =>
    simp only [sdeStrToSolver, sdeSolverDict, mkSdeSolver, checkTypes, allNoiseTypes, hmem, List.find?, bind, Except.bind,
      pure, Except.pure, beq_self_eq_true, ne_eq, not_true, if_false, if_true, String.reduceBEq, Bool.false_eq_true]
    rw [key]
    exact fun _ _ _ => rfl
  | heun n hmem =>
    simp only [sdeStrToSolver, sdeSolverDict, mkSdeSolver, checkTypes, allNoiseTypes, hmem, List.find?, bind, Except.bind,
      pure, Except.pure, beq_self_eq_true, ne_eq, not_true, if_false, if_true, String.reduceBEq, Bool.false_eq_true]
    rw [key]
    exact fun _ _ _ => rfl
  | milsteinIto _ _ =>
    simp only [sdeStrToSolver, sdeSolverDict, mkSdeSolver, checkTypes, allNoiseTypes, List.find?, bind, Except.bind,
      pure, Except.pure, beq_self_eq_true, ne_eq, not_true, if_false, if_true, String.reduceBEq, Bool.false_eq_true]
    rw [key]
    exact fun _ _ _ => rfl
  | milsteinStratonovich _ _ =>
    simp only [sdeStrToSolver, sdeSolverDict, mkSdeSolver, checkTypes, allNoiseTypes, List.find?, bind, Except.bind,
      pure, Except.pure, beq_self_eq_true, ne_eq, not_true, if_false, if_true, String.reduceBEq, Bool.false_eq_true]
    rw [key]
    exact fun _ _ _ => rfl

/-- The hypotheses of C90 are met by the default labels, and the result of a noiseless run is the Euler trajectory:
`x' = x` over `0, 1, 2` with the path `W(t) = t`. -/
example : Accepts "euler" (some "diagonal") (some "ito") ∧
    (do
      let n ← NeuralSde.make (m := Except PyErr) (K := ℚ) (V := ℚ) (fun _ x => pure x) (fun _ _ => pure 0)
        (bm := some (pathBm id))
      n.forward id 1 (some [0, 1, 2]) []) = .ok (.pair [0, 1, 2] [1, 2, 4]) :=
  ⟨.euler "diagonal" (by simp), by decide +kernel⟩

/-- **C90.** The remaining entry points raise whatever the arguments: orders other than one in the constructor,
sensitivities other than `autograd`, `trajectory` and `backward_trajectory`. -/
theorem C90_errors (sqrt : K → K) (f g : K → V → Except PyErr V) (n : NeuralSde (Except PyErr) K V) (x : V) (ts : List K)
    (tSpan : Option (List K)) (saveAt : List K) :
    (∀ order, order ≠ 1 → NeuralSde.make f g order = .error .notImplementedError) ∧
    (n.sensitivity ≠ "autograd" → n.forward sqrt x tSpan saveAt = .error .notImplementedError) ∧
    n.backwardTrajectory x ts = .error .notImplementedError := by
  refine ⟨fun o ho => by simp [NeuralSde.make, ho]; rfl, fun hs => ?_, rfl⟩
  simp only [NeuralSde.forward, hs, if_false]
  rfl

/-- **C90 is false** of `trajectory`: the call always raises `TypeError` (a missing argument). -/
theorem C90_trajectory_refuted (n : NeuralSde (Except PyErr) K V) (x : V) (ts : List K) :
    n.trajectory x ts = .error .typeError := rfl

end c90

/-! ### C58, the layer -/

/-- **C58**, the layer: `MultipleShootingLayer(vf, solver)` runs the solver of that name with four iterations of four fine steps,
and its explicit settings arrive in their places. -/
theorem C58_layer_partial {R : Type} (run : MSSolverClass → (fineSteps maxiter : Nat) → Except PyErr R) (solver : String)
    (maxiter fineSteps : Nat) :
    (multipleShootingLayer solver).odeint run = (strToMsSolver solver).bind (fun cls => run cls 4 4) ∧
    (multipleShootingLayer solver (maxiter := maxiter)).odeint run =
      (strToMsSolver solver).bind (fun cls => run cls 4 maxiter) ∧
    (multipleShootingLayer solver "autograd" maxiter fineSteps).odeint run =
      (strToMsSolver solver).bind (fun cls => run cls fineSteps maxiter) :=
  ⟨C58_autograd_partial run solver 4 4, C58_autograd_partial run solver maxiter 4,
    C58_autograd_partial run solver maxiter fineSteps⟩

end Torchdyn
