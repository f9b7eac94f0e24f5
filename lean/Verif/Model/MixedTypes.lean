import Verif.Model.Api
import Verif.Model.OdeShapes
import Verif.Model.Precision

/-!
`odeint` on tensors with a floating-point type and a number of axes: /repo/torchdyn/numerics/odeint.py:29-91 and 326-444,
/repo/torchdyn/numerics/solvers/ode.py:61-178, /repo/torchdyn/numerics/utils.py:37-63 and /repo/torchdyn/numerics/interpolators.py
with the type promotion of torch. `sync_device_dtype` (templates.py:30-40, ode.py:36-55) converts the tableau to the type of the
state; it moves `t_span` and the constants `safety`, `min_factor`, `max_factor` to the device of the state and leaves their types.

A tensor is a value with a tag: its type, and whether it has an axis. Values are exact numbers (`Verif.Model.FloatTime` and
`Verif.Model.Precision` follow the rounding). The times and step sizes of the adaptive loop have shape `()` or `(1,)`; a state has
one shape, which an operation with a tensor of shape `(1,)` does not change, except that a state of shape `()` becomes one of shape
`(1,)`. Fields are functions of tagged tensors, which may raise (a linear layer with weights of another type raises `RuntimeError`).
No seminorms.
-/

namespace Torchdyn

/-- The type of a tensor, and whether it has at least one axis. -/
structure Tag where
  dtype : Dtype
  dim : Bool
  deriving DecidableEq, Repr

/-- The wider one of two floating-point types. -/
def Dtype.wider : Dtype → Dtype → Dtype
  | .float32, .float32 => .float32
  | _, _ => .float64

/-- Type promotion of torch for an operation on two floating-point tensors: zero-dimensional tensors count only if there is no
other. -/
def Tag.join (a b : Tag) : Tag :=
  if a.dim = b.dim then ⟨a.dtype.wider b.dtype, a.dim⟩ else if a.dim then a else b

/-- A tensor: value and tag. -/
structure Tagged (α : Type) where
  val : α
  tag : Tag

instance {α : Type} [Add α] : Add (Tagged α) := ⟨fun a b => ⟨a.val + b.val, a.tag.join b.tag⟩⟩
instance {α : Type} [Sub α] : Sub (Tagged α) := ⟨fun a b => ⟨a.val - b.val, a.tag.join b.tag⟩⟩
instance {α : Type} [Neg α] : Neg (Tagged α) := ⟨fun a => ⟨-a.val, a.tag⟩⟩

/-- The product of a number or tensor of shape `(1,)` and a tensor. -/
instance {K V : Type} [SMul K V] : HMul (Tagged K) (Tagged V) (Tagged V) := ⟨fun c y => ⟨c.val • y.val, c.tag.join y.tag⟩⟩

/-- An entry of the tableau or of `bmid` after `sync_device_dtype` to type `d`: zero-dimensional. -/
def entry {K : Type} (d : Dtype) (c : K) : Tagged K := ⟨c, ⟨d, false⟩⟩

section steps

variable {K V : Type} [Field K] [AddCommGroup V] [Module K V]

/-- ode.py:68-71 `Euler.step` without `k1`. -/
def eulerTagged (f : Tagged K → Tagged V → Except PyErr (Tagged V)) (x : Tagged V) (t dt : Tagged K) :
    Except PyErr (StepOut (Tagged V)) := do
  let k1 ← f t x
  let xSol := x + dt * k1
  pure (.three none xSol none)

/-- `0.5 * dt` (python numbers do not take part in type promotion). -/
def half (dt : Tagged K) : Tagged K := ⟨1 / 2 * dt.val, dt.tag⟩

/-- ode.py:82-86 `Midpoint.step` without `k1`. -/
def midpointTagged (f : Tagged K → Tagged V → Except PyErr (Tagged V)) (x : Tagged V) (t dt : Tagged K) :
    Except PyErr (StepOut (Tagged V)) := do
  let k1 ← f t x
  let xMid := x + half dt * k1
  let k2 ← f (t + half dt) xMid
  let xSol := x + dt * k2
  pure (.three none xSol none)

/-- ode.py:97-104 `RungeKutta4.step` without `k1`; `d` is the type of the tableau. `a[0]` has shape `(1,)` (_constants.py:23). -/
def rk4Tagged (d : Dtype) (tab : Tableau K) (f : Tagged K → Tagged V → Except PyErr (Tagged V)) (x : Tagged V) (t dt : Tagged K) :
    Except PyErr (StepOut (Tagged V)) := do
  let c i := entry d (nth tab.c i)
  let a i j := entry d (nth2 tab.a i j)
  let b i := entry d (nth tab.bsol i)
  let a0 : Tagged K := ⟨nth2 tab.a 0 0, ⟨d, true⟩⟩
  let k1 ← f t x
  let k2 ← f (t + c 0 * dt) (x + dt * (a0 * k1))
  let k3 ← f (t + c 1 * dt) (x + dt * (a 1 0 * k1 + a 1 1 * k2))
  let k4 ← f (t + c 2 * dt) (x + dt * (a 2 0 * k1 + a 2 1 * k2 + a 2 2 * k3))
  let xSol := x + dt * (b 0 * k1 + b 1 * k2 + b 2 * k3 + b 3 * k4)
  pure (.three none xSol none)

/-- The step of a fixed-step method on tagged tensors; `d` is the type of the state, to which the tableau is converted. -/
def FixedMethod.taggedStep (method : FixedMethod) (d : Dtype) (f : Tagged K → Tagged V → Except PyErr (Tagged V)) :
    Tagged V → Tagged K → Tagged K → Except PyErr (StepOut (Tagged V)) :=
  match method with
  | .euler => eulerTagged f
  | .midpoint => midpointTagged f
  | .rk4 => rk4Tagged d (constructRk4 K) f

/-- ode.py:145-156 `DormandPrince45.step` and ode.py:167-178 `Tsitouras45.step` with `k1`; `d` is the type of the tableau. The second
stage of `dopri5` uses the row `a[0]` of shape `(1,)`, that of `tsit5` the entry `a[0][0]`. -/
def rk7Tagged (tsit : Bool) (d : Dtype) (tab : Tableau K) (f : Tagged K → Tagged V → Except PyErr (Tagged V)) (x : Tagged V)
    (t dt : Tagged K) (k1 : Tagged V) : Except PyErr (StepOut (Tagged V)) := do
  let c i := entry d (nth tab.c i)
  let a i j := entry d (nth2 tab.a i j)
  let b i := entry d (nth tab.bsol i)
  let e i := entry d (nth tab.berr i)
  let a0 : Tagged K := ⟨nth2 tab.a 0 0, ⟨d, !tsit⟩⟩
  let k2 ← f (t + c 0 * dt) (x + dt * a0 * k1)
  let k3 ← f (t + c 1 * dt) (x + dt * (a 1 0 * k1 + a 1 1 * k2))
  let k4 ← f (t + c 2 * dt) (x + dt * a 2 0 * k1 + dt * a 2 1 * k2 + dt * a 2 2 * k3)
  let k5 ← f (t + c 3 * dt) (x + dt * a 3 0 * k1 + dt * a 3 1 * k2 + dt * a 3 2 * k3 + dt * a 3 3 * k4)
  let k6 ← f (t + c 4 * dt) (x + dt * a 4 0 * k1 + dt * a 4 1 * k2 + dt * a 4 2 * k3 + dt * a 4 3 * k4 + dt * a 4 4 * k5)
  let k7 ← f (t + c 5 * dt)
    (x + dt * a 5 0 * k1 + dt * a 5 1 * k2 + dt * a 5 2 * k3 + dt * a 5 3 * k4 + dt * a 5 4 * k5 + dt * a 5 5 * k6)
  let xSol := x + dt * (b 0 * k1 + b 1 * k2 + b 2 * k3 + b 3 * k4 + b 4 * k5 + b 5 * k6)
  let err := dt * (e 0 * k1 + e 1 * k2 + e 2 * k3 + e 3 * k4 + e 4 * k5 + e 5 * k6 + e 6 * k7)
  pure (.four k7 xSol err [k1, k2, k3, k4, k5, k6, k7])

end steps

/-- `torch.stack(sol)`: `RuntimeError` unless all shapes are equal; the result has the widest of the types. (The list stands for the
stacked tensor.) -/
def stackTagged {V : Type} (sol : List (Tagged V)) : Except PyErr (List (Tagged V)) :=
  match sol with
  | [] => .ok []
  | y :: ys =>
    if ys.all (fun z => z.tag.dim == y.tag.dim) then
      let tag := ys.foldl (fun a z => a.join z.tag) y.tag
      .ok ((y :: ys).map (fun z => ⟨z.val, tag⟩))
    else .error .runtimeError

/-- odeint.py:56 `f_ = lambda t, x: -f(-t, x)`. -/
def reverseTagged {K V : Type} [Neg K] [Neg V] (f : Tagged K → Tagged V → Except PyErr (Tagged V)) :
    Tagged K → Tagged V → Except PyErr (Tagged V) := fun t x => (f (-t) x).map (fun y => -y)

/-- odeint.py:29-91 and 411-444 with a fixed-step solver given by name, a state `x` and a grid of type `dT`: the entries of `t_span`,
and so `t` and `dt`, are zero-dimensional. Returns the times and the stacked states. -/
def odeintTaggedFixed {K V : Type} [Field K] [LinearOrder K] [AddCommGroup V] [Module K V] (method : FixedMethod)
    (f : Tagged K → Tagged V → Except PyErr (Tagged V)) (x : Tagged V) (dT : Dtype) (tSpan saveAt : List K) :
    Except PyErr (List K × List (Tagged V)) := do
  let t1 ← getItem tSpan 1
  let t0 ← getItem tSpan 0
  let f' := if t1 < t0 then reverseTagged f else f
  let ts := if t1 < t0 then tSpan.map (fun t => -t) else tSpan
  let d := x.tag.dtype
  let (ts, sol) ← fixedOdeint torchIsclose (fun x t dt => method.taggedStep d f' x (entry dT t) (entry dT dt)) x ts saveAt
  let sol ← stackTagged sol
  pure (ts, sol)

section adaptive

variable {ι : Type}

/-- odeint.py:352-353; `T = t_span[-1]` is zero-dimensional. -/
noncomputable def taggedClampDt (dT : Dtype) (T : ℝ) (s : AState (Tagged ℝ) (Tagged (ι → ℝ))) : Tagged ℝ :=
  if T < s.t.val + s.dt.val then entry dT T - s.t else s.dt

/-- odeint.py:355-361. Returns `(dt, dt_old, ckpt_flag)`. -/
noncomputable def taggedCheckpointDt (hasInterp : Bool) (dT : Dtype) (tEval : List ℝ) (s : AState (Tagged ℝ) (Tagged (ι → ℝ)))
    (dt : Tagged ℝ) : Tagged ℝ × Tagged ℝ × Bool :=
  match tEval[s.ckpt]? with
  | some te =>
    if te < s.t.val + dt.val then
      if hasInterp then (dt, s.dtOld, s.ckptFlag) else (entry dT te - s.t, dt, true)
    else (dt, s.dtOld, s.ckptFlag)
  | none => (dt, s.dtOld, s.ckptFlag)

/-- odeint.py:380-384 and interpolators.py:29-63: the interpolated state. Its tag is that of `result` at interpolators.py:32,
`coefs[0] + theta * coefs[1]` with `theta = (t - t0) / (t1 - t0)`, `coefs[0] = x0` and `coefs[1] = dt * f0`; the other terms are added
in place (36), which keeps the tag. -/
noncomputable def taggedDense (t dt : Tagged ℝ) (k1 fNew x xNew : Tagged (ι → ℝ)) (stages : List (Tagged (ι → ℝ))) (tq : Tagged ℝ) :
    Tagged (ι → ℝ) where
  val := fourthOrderDense (construct4th ℝ) t.val dt.val k1.val fNew.val x.val xNew.val (stages.map Tagged.val) tq.val
  tag := x.tag.join (((tq.tag.join t.tag).join ((t.tag.join dt.tag).join t.tag)).join (dt.tag.join k1.tag))

/-- odeint.py:379-387; `eval_times` gets `t_eval[ckpt_counter][None]`, of shape `(1,)`. -/
noncomputable def taggedInterpCkpts (dT : Dtype) (dense : Tagged ℝ → Tagged (ι → ℝ)) (tNew : ℝ) :
    (rest : List ℝ) → (ckpt : ℕ) → (evalTimes : List (Tagged ℝ)) → (sol : List (Tagged (ι → ℝ))) →
      ℕ × List (Tagged ℝ) × List (Tagged (ι → ℝ))
  | [], ckpt, evalTimes, sol => (ckpt, evalTimes, sol)
  | te :: rest, ckpt, evalTimes, sol =>
    if te < tNew then
      taggedInterpCkpts dT dense tNew rest (ckpt + 1) (evalTimes ++ [⟨te, ⟨dT, true⟩⟩]) (sol ++ [dense (entry dT te)])
    else (ckpt, evalTimes, sol)

/-- odeint.py:376-395: what happens to the state when the step is accepted. -/
noncomputable def taggedAccept (hasInterp returnAllEval : Bool) (dT : Dtype) (tEval : List ℝ)
    (s : AState (Tagged ℝ) (Tagged (ι → ℝ))) (dt : Tagged ℝ) (fNew xNew : Tagged (ι → ℝ)) (stages : List (Tagged (ι → ℝ))) :
    Except PyErr (AState (Tagged ℝ) (Tagged (ι → ℝ))) := do
  let (ckpt, evalTimes, sol) :=
    if hasInterp then
      taggedInterpCkpts dT (fun tq => taggedDense s.t dt s.k1 fNew s.x xNew stages tq) (s.t.val + dt.val) (tEval.drop s.ckpt) s.ckpt
        s.evalTimes s.sol
    else (s.ckpt, s.evalTimes, s.sol)
  let te ← getItem tEval ckpt
  let hit := s.t.val + dt.val = te
  let sol := if hit ∨ returnAllEval then sol ++ [xNew] else sol
  let evalTimes := if hit ∨ returnAllEval then evalTimes ++ [s.t + dt] else evalTimes
  let ckpt := if hit then ckpt + 1 else ckpt
  pure { s with t := s.t + dt, x := xNew, k1 := fNew, ckpt, evalTimes, sol }

/-- utils.py:57-63 `adapt_step` with the constants of the solver. `safety`, `min_factor` and `max_factor` are `float32` tensors of
shape `(1,)` (templates.py:23-25), `error_ratio` and `exponent` are zero-dimensional, `torch.ones_like(dt)` has the tag of `dt`. -/
noncomputable def taggedAdapt (solver : Solver (Except PyErr) ℝ (ι → ℝ) Unit) (dt : Tagged ℝ) (er : ℝ) : Tagged ℝ where
  val := adaptStep dt.val er solver.safety solver.minFactor solver.maxFactor solver.order
  tag :=
    if er = 0 then dt.tag.join ⟨.float32, true⟩
    else
      let minFactor : Tag := if er < 1 then dt.tag else ⟨.float32, true⟩
      dt.tag.join (Tag.join ⟨.float32, true⟩ (Tag.join ⟨.float32, true⟩ minFactor))

variable [Fintype ι]

/-- odeint.py:352-407: one iteration of the loop. -/
noncomputable def taggedIter (tsit hasInterp returnAllEval : Bool) (f : Tagged ℝ → Tagged (ι → ℝ) → Except PyErr (Tagged (ι → ℝ)))
    (d dT : Dtype) (atol rtol : ℝ) (tEval : List ℝ) (T : ℝ) (s : AState (Tagged ℝ) (Tagged (ι → ℝ))) :
    Except PyErr (AState (Tagged ℝ) (Tagged (ι → ℝ))) := do
  let (dt, dtOld, ckptFlag) := taggedCheckpointDt hasInterp dT tEval s (taggedClampDt dT T s)
  let out ← rk7Tagged tsit d (if tsit then constructTsit5 ℝ else constructDopri5 ℝ) f s.x s.t dt s.k1
  let (fNew, xNew, xErr, stages) ← out.unpack4
  let er := errorRatio Finset.univ atol rtol s.x.val xNew.val xErr.val
  let s' ← if er ≤ 1 then taggedAccept hasInterp returnAllEval dT tEval s dt fNew xNew stages else pure s
  let dt := if ckptFlag then dtOld - dt else dt
  pure { s' with
    dt := taggedAdapt (if tsit then tsit5Solver _ ℝ (ι → ℝ) Unit else dopri5Solver _ ℝ (ι → ℝ) Unit) dt er, dtOld, ckptFlag := false }

/-- odeint.py:351-407: the loop, with fuel. -/
noncomputable def taggedLoop (tsit hasInterp returnAllEval : Bool) (f : Tagged ℝ → Tagged (ι → ℝ) → Except PyErr (Tagged (ι → ℝ)))
    (d dT : Dtype) (atol rtol : ℝ) (tEval : List ℝ) (T : ℝ) :
    (fuel : ℕ) → AState (Tagged ℝ) (Tagged (ι → ℝ)) → Except PyErr (Option (AState (Tagged ℝ) (Tagged (ι → ℝ))))
  | 0, _ => pure none
  | fuel + 1, s =>
    if s.t.val < T then do
      let s ← taggedIter tsit hasInterp returnAllEval f d dT atol rtol tEval T s
      taggedLoop tsit hasInterp returnAllEval f d dT atol rtol tEval T fuel s
    else pure (some s)

/-- utils.py:37-54 `init_step`. `hairer_norm` gives a zero-dimensional tensor, `.to(t0)` (53) converts the result to the type of the
grid. -/
noncomputable def taggedInitStep (f : Tagged ℝ → Tagged (ι → ℝ) → Except PyErr (Tagged (ι → ℝ))) (f0 x0 : Tagged (ι → ℝ))
    (t0 : Tagged ℝ) (order : ℕ) (atol rtol : ℝ) : Except PyErr (Tagged ℝ) := do
  let scale : ι → ℝ := fun i => atol + |x0.val i| * rtol
  let d0 := hairerNorm (fun i => x0.val i / scale i)
  let d1 := hairerNorm (fun i => f0.val i / scale i)
  let h0 : Tagged ℝ := ⟨initTrial d0 d1,
    if d0 < 1 / 10 ^ 5 ∨ d1 < 1 / 10 ^ 5 then ⟨t0.tag.dtype, false⟩
    else ⟨x0.tag.dtype.wider (f0.tag.join x0.tag).dtype, false⟩⟩
  let fNew ← f (t0 + h0) (x0 + h0 * f0)
  let d2 := hairerNorm (fun i => (fNew.val i - f0.val i) / scale i) / h0.val
  let h1 := initSecond d1 d2 h0.val order
  pure ⟨min (100 * h0.val) h1, ⟨t0.tag.dtype, false⟩⟩

/-- odeint.py:408 `return torch.cat(eval_times), torch.stack(sol)`, when the loop has finished. -/
def taggedResult (r : Option (AState (Tagged ℝ) (Tagged (ι → ℝ)))) : Except PyErr (Option (List ℝ × List (Tagged (ι → ℝ)))) :=
  match r with
  | none => .ok none
  | some s => (stackTagged s.sol).map (fun sol => some (s.evalTimes.map Tagged.val, sol))

/-- odeint.py:29-91 and 326-408 with `dopri5` or `tsit5` by name, a state `x` and a grid of type `dT`; `useInterp` is
`interpolator == '4th'`. `t_span[:1]` has shape `(1,)`, `t_span[0]` is zero-dimensional. Returns the times and the stacked states. -/
noncomputable def odeintTagged (tsit : Bool) (fuel : ℕ) (f : Tagged ℝ → Tagged (ι → ℝ) → Except PyErr (Tagged (ι → ℝ)))
    (x : Tagged (ι → ℝ)) (dT : Dtype) (tSpan : List ℝ) (atol rtol : ℝ) (useInterp returnAllEval : Bool) :
    Except PyErr (Option (List ℝ × List (Tagged (ι → ℝ)))) := do
  let t1 ← getItem tSpan 1
  let t0 ← getItem tSpan 0
  let f' := if t1 < t0 then reverseTagged f else f
  let ts := if t1 < t0 then tSpan.map (fun t => -t) else tSpan
  let hasInterp := if tsit then false else useInterp
  let t ← getItem ts 0
  let k1 ← f' (entry dT t) x
  let dt ← taggedInitStep f k1 x (entry dT t) 5 atol rtol
  let T ← getItem ts (ts.length - 1)
  let r ← taggedLoop tsit hasInterp returnAllEval f' x.tag.dtype dT atol rtol (ts.drop 1) T fuel
    (adaptiveInit k1 x dt ⟨t, ⟨dT, true⟩⟩)
  taggedResult r

end adaptive

end Torchdyn
