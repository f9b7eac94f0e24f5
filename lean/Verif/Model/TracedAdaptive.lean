import Verif.Model.Traced
import Verif.Model.Api

/-!
Back-propagation through `odeint` with `dopri5` or `tsit5`, the default of `NeuralODE`
(/repo/torchdyn/core/problems.py:27, 140-152, /repo/torchdyn/core/neuralde.py:33-37): /repo/torchdyn/numerics/odeint.py:54-91 and
326-408 without interpolator, /repo/torchdyn/numerics/solvers/ode.py:138-178 and /repo/torchdyn/numerics/utils.py:37-63 inside an
autograd graph.

As in `Verif.Model.Traced` a tensor is its value with its derivative with respect to the inputs. Here times and step sizes are
tensors of the graph too: the first step size is computed from the initial state and the field (`init_step`), and a step that ends at a
checkpoint has length `t_eval[i] - t`. `adapt_step` is under `torch.no_grad` (utils.py:57), its result is a constant. The entries of
`t_span` are constants. Comparisons look at values.
-/

namespace Torchdyn

section

variable {Q V : Type} [NormedAddCommGroup Q] [NormedSpace ℝ Q] [NormedAddCommGroup V] [NormedSpace ℝ V]

/-- The product of a scalar tensor and a tensor in a graph. -/
noncomputable def tracedMul (c : Traced Q ℝ) (y : Traced Q V) : Traced Q V := (c.1 • y.1, c.1 • y.2 + c.2.smulRight y.1)

/-- A vector field with parameters, at a time that is part of the graph. As for `tracedField`, that autograd differentiates the field
correctly is part of the model. -/
noncomputable def timedField (f : Q → ℝ → V → V) (q : Q) (t : Traced Q ℝ) (y : Traced Q V) : Traced Q V :=
  (f q t.1 y.1, (fderiv ℝ (fun p : Q × ℝ × V => f p.1 p.2.1 p.2.2) (q, t.1, y.1)).comp
    ((ContinuousLinearMap.id ℝ Q).prod (t.2.prod y.2)))

/-- ode.py:138-156 and 160-178, `DormandPrince45.step` and `Tsitouras45.step`, in a graph: `k1` is given. Returns `f_new`, `x_new` and
`x_err`; the stages are used by interpolators only. -/
noncomputable def timedRk7Step (tab : Tableau ℝ) (F : Traced Q ℝ → Traced Q V → Traced Q V) (x : Traced Q V) (t dt : Traced Q ℝ)
    (k1 : Traced Q V) : Traced Q V × Traced Q V × Traced Q V :=
  let c := tab.c
  let a := tab.a
  let b := tab.bsol
  let e := tab.berr
  let k2 := F (t + nth c 0 • dt) (x + tracedMul (nth2 a 0 0 • dt) k1)
  let k3 := F (t + nth c 1 • dt) (x + tracedMul dt (nth2 a 1 0 • k1 + nth2 a 1 1 • k2))
  let k4 := F (t + nth c 2 • dt)
    (x + tracedMul (nth2 a 2 0 • dt) k1 + tracedMul (nth2 a 2 1 • dt) k2 + tracedMul (nth2 a 2 2 • dt) k3)
  let k5 := F (t + nth c 3 • dt)
    (x + tracedMul (nth2 a 3 0 • dt) k1 + tracedMul (nth2 a 3 1 • dt) k2 + tracedMul (nth2 a 3 2 • dt) k3
      + tracedMul (nth2 a 3 3 • dt) k4)
  let k6 := F (t + nth c 4 • dt)
    (x + tracedMul (nth2 a 4 0 • dt) k1 + tracedMul (nth2 a 4 1 • dt) k2 + tracedMul (nth2 a 4 2 • dt) k3
      + tracedMul (nth2 a 4 3 • dt) k4 + tracedMul (nth2 a 4 4 • dt) k5)
  let k7 := F (t + nth c 5 • dt)
    (x + tracedMul (nth2 a 5 0 • dt) k1 + tracedMul (nth2 a 5 1 • dt) k2 + tracedMul (nth2 a 5 2 • dt) k3
      + tracedMul (nth2 a 5 3 • dt) k4 + tracedMul (nth2 a 5 4 • dt) k5 + tracedMul (nth2 a 5 5 • dt) k6)
  let xSol := x + tracedMul dt (nth b 0 • k1 + nth b 1 • k2 + nth b 2 • k3 + nth b 3 • k4 + nth b 4 • k5 + nth b 5 • k6)
  let err := tracedMul dt (nth e 0 • k1 + nth e 1 • k2 + nth e 2 • k3 + nth e 3 • k4 + nth e 4 • k5 + nth e 5 • k6 + nth e 6 • k7)
  (k7, xSol, err)

/-- odeint.py:352-353 in a graph. -/
noncomputable def tracedClampDt (T : ℝ) (s : AState (Traced Q ℝ) (Traced Q V)) : Traced Q ℝ :=
  if T < s.t.1 + s.dt.1 then leaf T - s.t else s.dt

/-- odeint.py:355-361 in a graph, without interpolator. -/
noncomputable def tracedCheckpointDt (tEval : List ℝ) (s : AState (Traced Q ℝ) (Traced Q V)) (dt : Traced Q ℝ) :
    Traced Q ℝ × Traced Q ℝ × Bool :=
  match tEval[s.ckpt]? with
  | some te => if te < s.t.1 + dt.1 then (leaf te - s.t, dt, true) else (dt, s.dtOld, s.ckptFlag)
  | none => (dt, s.dtOld, s.ckptFlag)

/-- odeint.py:389-395 in a graph, without interpolator. -/
noncomputable def tracedAccept (returnAllEval : Bool) (tEval : List ℝ) (s : AState (Traced Q ℝ) (Traced Q V)) (dt : Traced Q ℝ)
    (fNew xNew : Traced Q V) : Except PyErr (AState (Traced Q ℝ) (Traced Q V)) := do
  let te ← getItem tEval s.ckpt
  let hit := s.t.1 + dt.1 = te
  let sol := if hit ∨ returnAllEval then s.sol ++ [xNew] else s.sol
  let evalTimes := if hit ∨ returnAllEval then s.evalTimes ++ [s.t + dt] else s.evalTimes
  let ckpt := if hit then s.ckpt + 1 else s.ckpt
  pure { s with t := s.t + dt, x := xNew, k1 := fNew, ckpt, evalTimes, sol }

end

variable {Q ι : Type} [NormedAddCommGroup Q] [NormedSpace ℝ Q] [Fintype ι]

/-- What the loop in a graph is given: the step, the error ratio of the values and the step size controller. -/
structure TracedCfg (Q V : Type) [NormedAddCommGroup Q] [NormedSpace ℝ Q] [NormedAddCommGroup V] [NormedSpace ℝ V] where
  step : Traced Q V → Traced Q ℝ → Traced Q ℝ → Traced Q V → Traced Q V × Traced Q V × Traced Q V
  errRatio : V → V → V → ℝ
  adapt : ℝ → ℝ → ℝ
  returnAllEval : Bool

/-- odeint.py:352-407 in a graph: one iteration. The error ratio is used in comparisons and by `adapt_step` only, which is under
`torch.no_grad`. -/
noncomputable def tracedIter (cfg : TracedCfg Q (ι → ℝ)) (tEval : List ℝ) (T : ℝ) (s : AState (Traced Q ℝ) (Traced Q (ι → ℝ))) :
    Except PyErr (AState (Traced Q ℝ) (Traced Q (ι → ℝ))) := do
  let (dt, dtOld, ckptFlag) := tracedCheckpointDt tEval s (tracedClampDt T s)
  let (fNew, xNew, xErr) := cfg.step s.x s.t dt s.k1
  let errorRatio := cfg.errRatio s.x.1 xNew.1 xErr.1
  let s' ← if errorRatio ≤ 1 then tracedAccept cfg.returnAllEval tEval s dt fNew xNew else pure s
  let dt := if ckptFlag then dtOld - dt else dt
  pure { s' with dt := leaf (cfg.adapt dt.1 errorRatio), dtOld, ckptFlag := false }

/-- odeint.py:351-407 in a graph. -/
noncomputable def tracedLoop (cfg : TracedCfg Q (ι → ℝ)) (tEval : List ℝ) (T : ℝ) :
    (fuel : ℕ) → AState (Traced Q ℝ) (Traced Q (ι → ℝ)) → Except PyErr (Option (AState (Traced Q ℝ) (Traced Q (ι → ℝ))))
  | 0, _ => pure none
  | fuel + 1, s =>
    if s.t.1 < T then do
      let s ← tracedIter cfg tEval T s
      tracedLoop cfg tEval T fuel s
    else pure (some s)

/-- The solver objects (ode.py:138-178), for their constants. -/
noncomputable def adaptiveSolver (tsit : Bool) (ι : Type) : Solver (Except PyErr) ℝ (ι → ℝ) Unit :=
  if tsit then tsit5Solver (Except PyErr) ℝ (ι → ℝ) Unit else dopri5Solver (Except PyErr) ℝ (ι → ℝ) Unit

/-- odeint.py:363-407, the parameters of the loop for `dopri5` and `tsit5`. -/
noncomputable def tracedCfg (tsit : Bool) (f : Q → ℝ → (ι → ℝ) → (ι → ℝ)) (q : Q) (atol rtol : ℝ) (sel : Finset ι)
    (returnAllEval : Bool) : TracedCfg Q (ι → ℝ) where
  step x t dt k1 := timedRk7Step (if tsit then constructTsit5 ℝ else constructDopri5 ℝ) (timedField f q) x t dt k1
  errRatio := errorRatio sel atol rtol
  adapt dt er := adaptStep dt er (adaptiveSolver tsit ι).safety (adaptiveSolver tsit ι).minFactor (adaptiveSolver tsit ι).maxFactor
    (adaptiveSolver tsit ι).order
  returnAllEval := returnAllEval

/-- utils.py:37-54 `init_step`, a function of the parameters and the initial state; `f` is the field, `f'` the field that is integrated
(odeint.py:86-89). -/
noncomputable def initialStep (tsit : Bool) (f f' : Q → ℝ → (ι → ℝ) → (ι → ℝ)) (t0 atol rtol : ℝ) (p : Q × (ι → ℝ)) : ℝ :=
  initStep (m := Id) (pureField (f p.1)) (f' p.1 t0 p.2) p.2 t0 (adaptiveSolver tsit ι).order atol rtol

/-- `init_step` in a graph. As for the field, that autograd differentiates it correctly (where it is differentiable) is part of the
model. -/
noncomputable def tracedInitialStep (tsit : Bool) (f f' : Q → ℝ → (ι → ℝ) → (ι → ℝ)) (q : Q) (x : Traced Q (ι → ℝ)) (t0 atol rtol : ℝ) :
    Traced Q ℝ :=
  (initialStep tsit f f' t0 atol rtol (q, x.1), (fderiv ℝ (initialStep tsit f f' t0 atol rtol) (q, x.1)).comp
    ((ContinuousLinearMap.id ℝ Q).prod x.2))

/-- odeint.py:326-408 in a graph, after lines 86-89 have computed `k1` and `dt`. -/
noncomputable def tracedAdaptive (cfg : TracedCfg Q (ι → ℝ)) (fuel : ℕ) (k1 x : Traced Q (ι → ℝ)) (dt : Traced Q ℝ) (tSpan : List ℝ) :
    Except PyErr (Option (List (Traced Q ℝ) × List (Traced Q (ι → ℝ)))) := do
  let tEval := tSpan.drop 1
  let t ← getItem tSpan 0
  let T ← getItem tSpan (tSpan.length - 1)
  let r ← tracedLoop cfg tEval T fuel (adaptiveInit k1 x dt (leaf t))
  pure (r.map fun s => (s.evalTimes, s.sol))

/-- odeint.py:54-91 in a graph, for `dopri5` and `tsit5` without interpolator: field `f` with parameters `q`, initial state `x`. When
time is reversed the first step size is computed with the original field, as in line 89. -/
noncomputable def tracedOdeint (tsit : Bool) (fuel : ℕ) (f : Q → ℝ → (ι → ℝ) → (ι → ℝ)) (q : Q) (x : Traced Q (ι → ℝ))
    (tSpan : List ℝ) (atol rtol : ℝ) (returnAllEval : Bool) (sel : Finset ι) :
    Except PyErr (Option (List (Traced Q ℝ) × List (Traced Q (ι → ℝ)))) := do
  let t1 ← getItem tSpan 1
  let t0 ← getItem tSpan 0
  let (f', ts) := if t1 < t0 then ((fun p t x => -f p (-t) x : Q → ℝ → (ι → ℝ) → (ι → ℝ)), tSpan.map fun t => -t) else (f, tSpan)
  let t ← getItem ts 0
  let k1 := timedField f' q (leaf t) x
  let dt := tracedInitialStep tsit f f' q x t atol rtol
  tracedAdaptive (tracedCfg tsit f' q atol rtol sel returnAllEval) fuel k1 x dt ts

end Torchdyn
