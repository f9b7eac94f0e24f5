import Verif.Model.Controller
import Verif.Model.AdaptiveOdeint

/-!
Integration with events: /repo/torchdyn/numerics/odeint.py:183-323 `odeint_hybrid`, with the callbacks
of /repo/torchdyn/numerics/utils.py:76-94 (`EventState`, `EventCallback`).
-/

namespace Torchdyn

/-- numerics/utils.py:84-94 `EventCallback`: the two methods a user implements. Callbacks without side effects
that return a `bool` are modelled. -/
structure EventCallback (K V : Type) where
  checkEvent : K → V → Bool
  jumpMap : K → V → V

/-- odeint.py:212, 244, 260: `[cb.check_event(t, x) for cb in callbacks]`. -/
def eventStates {K V : Type} (callbacks : List (EventCallback K V)) (t : K) (x : V) : List Bool :=
  callbacks.map (fun cb => cb.checkEvent t x)

/-- odeint.py:215-216, 245-246, 262-263: the number of events that changed from `False` to `True`.
`event_states` is set once (line 209), to `False` for each callback, and never updated. -/
def triggeredEvents (evid : List Bool) : Nat :=
  let eventStates := evid.map (fun _ => false)
  ((List.zipWith (fun a b => (a != b) && (b == false)) evid eventStates).filter id).length

/-- odeint.py:218, 276: `min([i for i, x in enumerate(evid) if x == True])`, `ValueError` when the list
is empty. -/
def firstActive {m : Type → Type} [Monad m] [MonadExcept PyErr m] (evid : List Bool) : m Nat :=
  match ((List.range evid.length).filter (fun i => evid.getD i false)).min? with
  | some i => pure i
  | none => throw PyErr.valueError

/-- Parameters of the loop that do not change while it runs. -/
structure HybridCfg (m : Type → Type) (K V : Type) where
  /-- `solver.step(f, x, t, dt, k1=k1)` as a function of `x t dt k1`; `k1` may be `None` -/
  step : V → K → K → Option V → m (StepOut V)
  /-- `error_ratio` as a function of `x x_new x_err` (odeint.py:295-303) -/
  errRatio : V → V → V → K
  /-- `adapt_step` as a function of `dt error_ratio` (odeint.py:317-321) -/
  adapt : K → K → K
  callbacks : List (EventCallback K V)
  eventTol : K

/-- The local variables of the main loop. -/
structure HState (K V : Type) where
  t : K
  dt : K
  x : V
  k1 : Option V
  ckpt : Nat
  ckptFlag : Bool
  dtOld : K
  evalTimes : List K
  sol : List V

/-- The local variables of the bisection loop; `events` is `new_event_states.evid`. -/
structure BState (K V : Type) where
  tInner : K
  dtInner : K
  xInner : V
  k1 : Option V
  events : List Bool

section

variable {m : Type → Type} [Monad m] [MonadExcept PyErr m] {K V : Type}
  [Add K] [Sub K] [Div K] [OfNat K 1] [OfNat K 2] [LT K] [DecidableLT K] [LE K] [DecidableLE K]

/-- odeint.py:255-273: the bisection loop; `n` is `max_iters - niters` (so 100 at the start), `dt` the
step size of the outer loop. -/
def bisect (cfg : HybridCfg m K V) (dt : K) : (n : Nat) → BState K V → m (BState K V)
  | 0, b => pure b
  | n + 1, b =>
    if cfg.eventTol < b.dtInner then do
      let dtInner := b.dtInner / 2
      let (fNew, x_, _, _) ← (← cfg.step b.xInner b.tInner dtInner b.k1).unpack4
      let events := eventStates cfg.callbacks (b.tInner + dtInner) x_
      if triggeredEvents events = 0 then
        bisect cfg dt n
          { tInner := b.tInner + dtInner, dtInner := dt, xInner := x_, k1 := some fNew, events }
      else
        bisect cfg dt n
          { tInner := b.tInner, dtInner := dtInner, xInner := b.xInner, k1 := b.k1, events }
    else pure b

/-- odeint.py:232-238: clamping to the final time and checkpointing. Returns
`(dt, dt_old, ckpt_flag, ckpt_counter)`. -/
def hybridDt (tEval : List K) (T : K) (s : HState K V) : K × K × Bool × Nat :=
  let dt := if T < s.t + s.dt then T - s.t else s.dt
  match tEval[s.ckpt]? with
  | some te =>
    if te < s.t + dt then (te - s.t, dt, true, s.ckpt + 1) else (dt, s.dtOld, s.ckptFlag, s.ckpt)
  | none => (dt, s.dtOld, s.ckptFlag, s.ckpt)

/-- odeint.py:250-291: the event branch, `evid` being the events seen at the end of the full step.
`ckpt_flag` is not reset. -/
def hybridJump (cfg : HybridCfg m K V) (s : HState K V) (dt dtOld : K) (ckptFlag : Bool) (ckpt : Nat)
    (evid : List Bool) : m (HState K V) := do
  let b ← bisect cfg dt 100
    { tInner := s.t, dtInner := dt, xInner := s.x, k1 := s.k1, events := evid }
  let i ← firstActive b.events
  let cb ← getItem cfg.callbacks i
  let x' := cb.jumpMap b.tInner b.xInner
  pure { t := b.tInner, dt := dt, x := x', k1 := none, ckpt, ckptFlag, dtOld,
         evalTimes := s.evalTimes ++ [b.tInner] ++ [b.tInner],
         sol := s.sol ++ [b.xInner] ++ [x'] }

/-- odeint.py:293-321: the branch without event. -/
def hybridFlow (cfg : HybridCfg m K V) (s : HState K V) (dt dtOld : K) (ckptFlag : Bool) (ckpt : Nat)
    (fNew xNew xErr : V) : HState K V :=
  let errorRatio := cfg.errRatio s.x xNew xErr
  let dt' := if ckptFlag then dtOld - dt else dt
  if errorRatio ≤ 1 then
    { t := s.t + dt, dt := cfg.adapt dt' errorRatio, x := xNew, k1 := some fNew, ckpt,
      ckptFlag := false, dtOld, evalTimes := s.evalTimes ++ [s.t + dt], sol := s.sol ++ [xNew] }
  else
    { s with dt := cfg.adapt dt' errorRatio, ckpt, ckptFlag := false, dtOld }

/-- odeint.py:229-321: one iteration of the main loop. -/
def hybridIter (cfg : HybridCfg m K V) (tEval : List K) (T : K) (s : HState K V) :
    m (HState K V) := do
  let (dt, dtOld, ckptFlag, ckpt) := hybridDt tEval T s
  let (fNew, xNew, xErr, _) ← (← cfg.step s.x s.t dt s.k1).unpack4
  let evid := eventStates cfg.callbacks (s.t + dt) xNew
  if 0 < triggeredEvents evid then hybridJump cfg s dt dtOld ckptFlag ckpt evid
  else pure (hybridFlow cfg s dt dtOld ckptFlag ckpt fNew xNew xErr)

/-- odeint.py:229 `while t < T and jnum < j_span`, at most `fuel` tests of the condition (`none`: not
finished). The body does not assign `jnum`. -/
def hybridLoop (cfg : HybridCfg m K V) (tEval : List K) (T : K) (jnum jSpan : Nat) :
    (fuel : Nat) → HState K V → m (Option (HState K V))
  | 0, _ => pure none
  | fuel + 1, s =>
    if s.t < T ∧ jnum < jSpan then do
      let s ← hybridIter cfg tEval T s
      hybridLoop cfg tEval T jnum jSpan fuel s
    else pure (some s)

/-- odeint.py:211-220: the initial jump, when `priority == 'jump'`. Returns `(x, jnum)`. -/
def initialJump (callbacks : List (EventCallback K V)) (jumpFirst : Bool) (t : K) (x : V) :
    m (V × Nat) :=
  if jumpFirst then
    let evid := eventStates callbacks t x
    if 0 < triggeredEvents evid then do
      let i ← firstActive evid
      let cb ← getItem callbacks i
      pure (cb.jumpMap t x, 1)
    else pure (x, 0)
  else pure (x, 0)

end

open Classical in
/-- odeint.py:183-323 `odeint_hybrid` on real tensors, for a solver object. `jumpFirst` is
`priority == 'jump'`, `sel` the entries kept by the seminorm, `args` the default value of the `args`
parameter of `solver.step`. `fuel` bounds the number of tests of the main loop condition. An empty
`t_span` is reported as `IndexError` (Python: `t_span[-1]`). -/
noncomputable def odeintHybrid {ι : Type} [Fintype ι] {m : Type → Type} [Monad m]
    [MonadExcept PyErr m] {A : Type} (fuel : Nat) (f : ℝ → (ι → ℝ) → m (ι → ℝ)) (x : ι → ℝ)
    (tSpan : List ℝ) (jSpan : Nat) (solver : Solver m ℝ (ι → ℝ) A)
    (callbacks : List (EventCallback ℝ (ι → ℝ))) (atol rtol eventTol : ℝ) (jumpFirst : Bool)
    (sel : Finset ι) (args : A) : m (Option (List ℝ × List (ι → ℝ))) := do
  let tEval := tSpan.drop 1
  let t ← getItem tSpan 0
  let T ← getItem tSpan (tSpan.length - 1)
  let (x, jnum) ← initialJump callbacks jumpFirst t x
  let k1 ← f t x
  let dt ← initStep f k1 x t solver.order atol rtol
  let cfg : HybridCfg m ℝ (ι → ℝ) :=
    { step := fun x t dt k1 => solver.step f x t dt k1 args
      errRatio := errorRatio sel atol rtol
      adapt := fun dt er => adaptStep dt er solver.safety solver.minFactor solver.maxFactor solver.order
      callbacks, eventTol }
  let r ← hybridLoop cfg tEval T jnum jSpan fuel
    { t, dt, x, k1 := some k1, ckpt := 0, ckptFlag := false, dtOld := dt, evalTimes := [t], sol := [x] }
  pure (r.map (fun s => (s.evalTimes, s.sol)))

end Torchdyn
