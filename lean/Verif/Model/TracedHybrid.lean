import Verif.Model.Traced
import Verif.Model.Hybrid

/-!
Back-propagation through `odeint_hybrid`: /repo/torchdyn/numerics/odeint.py:183-323 inside an autograd graph.

As in `Verif.Model.Traced` a tensor is its value with its derivative with respect to the inputs, and times and step sizes are
constants. In the code the first step size (`init_step`) is part of the graph, unless it is the constant of utils.py:42; what is
said below of the states of the bisection does not depend on it, since nothing computed there is part of the graph.
-/

namespace Torchdyn

section

variable {Q V : Type} [NormedAddCommGroup Q] [NormedSpace ℝ Q] [NormedAddCommGroup V] [NormedSpace ℝ V]

/-- The result of a step inside `torch.no_grad()` (odeint.py:256-258). -/
def StepOut.detach : StepOut (Traced Q V) → StepOut (Traced Q V)
  | .three k x e => .three (k.map fun y => leaf y.1) (leaf x.1) (e.map fun y => leaf y.1)
  | .four k x e stages => .four (leaf k.1) (leaf x.1) (leaf e.1) (stages.map fun y => leaf y.1)

/-- odeint.py:256 `with torch.no_grad()`: the steps of the bisection. -/
def HybridCfg.noGrad (cfg : HybridCfg (Except PyErr) ℝ (Traced Q V)) : HybridCfg (Except PyErr) ℝ (Traced Q V) :=
  { cfg with
    step := fun x t dt k1 => do
      let r ← cfg.step x t dt k1
      pure r.detach }

/-- odeint.py:229-321 in a graph: one iteration of the main loop. Only the steps of the bisection are inside `torch.no_grad()`;
the jump map is not (line 282). -/
noncomputable def tracedHybridIter (cfg : HybridCfg (Except PyErr) ℝ (Traced Q V)) (tEval : List ℝ) (T : ℝ) (s : HState ℝ (Traced Q V)) :
    Except PyErr (HState ℝ (Traced Q V)) := do
  let (dt, dtOld, ckptFlag, ckpt) := hybridDt tEval T s
  let (fNew, xNew, xErr, _) ← (← cfg.step s.x s.t dt s.k1).unpack4
  let evid := eventStates cfg.callbacks (s.t + dt) xNew
  if 0 < triggeredEvents evid then hybridJump cfg.noGrad s dt dtOld ckptFlag ckpt evid
  else pure (hybridFlow cfg s dt dtOld ckptFlag ckpt fNew xNew xErr)

/-- odeint.py:229 in a graph, `while t < T and jnum < j_span`. -/
noncomputable def tracedHybridLoop (cfg : HybridCfg (Except PyErr) ℝ (Traced Q V)) (tEval : List ℝ) (T : ℝ) (jnum jSpan : ℕ) :
    (fuel : ℕ) → HState ℝ (Traced Q V) → Except PyErr (Option (HState ℝ (Traced Q V)))
  | 0, _ => pure none
  | fuel + 1, s =>
    if s.t < T ∧ jnum < jSpan then do
      let s ← tracedHybridIter cfg tEval T s
      tracedHybridLoop cfg tEval T jnum jSpan fuel s
    else pure (some s)

/-- A callback whose jump map may depend on the inputs. -/
structure InputCallback (Q V : Type) where
  checkEvent : ℝ → V → Bool
  jumpMap : Q → ℝ → V → V

/-- The callback for the inputs `q`. -/
def InputCallback.plain (cb : InputCallback Q V) (q : Q) : EventCallback ℝ V := ⟨cb.checkEvent, cb.jumpMap q⟩

/-- The callback in a graph. -/
noncomputable def InputCallback.traced (cb : InputCallback Q V) (q : Q) : EventCallback ℝ (Traced Q V) :=
  ⟨fun t y => cb.checkEvent t y.1, tracedField cb.jumpMap q⟩

end

open Classical in
/-- odeint.py:183-323 `odeint_hybrid` in a graph. Norms and tolerances see the values. -/
noncomputable def tracedOdeintHybrid {ι Q : Type} [Fintype ι] [NormedAddCommGroup Q] [NormedSpace ℝ Q] {A : Type} (fuel : ℕ)
    (f : Q → ℝ → (ι → ℝ) → (ι → ℝ)) (q : Q) (x : Traced Q (ι → ℝ)) (tSpan : List ℝ) (jSpan : ℕ)
    (solver : Solver (Except PyErr) ℝ (Traced Q (ι → ℝ)) A) (callbacks : List (InputCallback Q (ι → ℝ))) (atol rtol eventTol : ℝ)
    (jumpFirst : Bool) (sel : Finset ι) (args : A) : Except PyErr (Option (List ℝ × List (Traced Q (ι → ℝ)))) := do
  let tEval := tSpan.drop 1
  let t ← getItem tSpan 0
  let T ← getItem tSpan (tSpan.length - 1)
  let callbacks := callbacks.map fun cb => cb.traced q
  let (x, jnum) ← initialJump callbacks jumpFirst t x
  let k1 := tracedField f q t x
  let dt ← initStep (pureField (f q)) k1.1 x.1 t solver.order atol rtol
  let cfg : HybridCfg (Except PyErr) ℝ (Traced Q (ι → ℝ)) :=
    { step := fun x t dt k1 => solver.step (pureField (tracedField f q)) x t dt k1 args
      errRatio := fun x xNew xErr => errorRatio sel atol rtol x.1 xNew.1 xErr.1
      adapt := fun dt er => adaptStep dt er solver.safety solver.minFactor solver.maxFactor solver.order
      callbacks, eventTol }
  let r ← tracedHybridLoop cfg tEval T jnum jSpan fuel
    { t, dt, x, k1 := some k1, ckpt := 0, ckptFlag := false, dtOld := dt, evalTimes := [t], sol := [x] }
  pure (r.map (fun s => (s.evalTimes, s.sol)))

end Torchdyn
