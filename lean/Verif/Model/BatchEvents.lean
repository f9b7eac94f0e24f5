import Verif.Model.Hybrid

/-!
Integration of a batch with events: /repo/torchdyn/numerics/odeint.py:183-323 `odeint_hybrid` with callbacks whose `check_event`
returns a boolean tensor, as those of /repo/tutorials/module2-numerics/m2c_hybrid_odeint.ipynb and those that use the attribute
`s` of /repo/torchdyn/numerics/utils.py:97-112 (`StochasticEventCallback`), which has one entry per batch element
(`self.expdist.sample(x0.shape[:1])`).
-/

namespace Torchdyn

/-- numerics/utils.py:84-94 `EventCallback` with a `check_event` that returns a boolean tensor, given by the list of its entries
(tensors of one dimension are modelled). -/
structure BatchCallback (K V : Type) where
  checkEvent : K → V → List Bool
  jumpMap : K → V → V

section

variable {m : Type → Type} [Monad m] [MonadExcept PyErr m]

/-- `a + b` for tensors of one dimension: a single entry is broadcast, other sizes must agree (`RuntimeError`). -/
def addTensor (a b : List Nat) : m (List Nat) :=
  if a.length = b.length then pure (List.zipWith (· + ·) a b)
  else match a, b with
    | [x], b => pure (b.map (x + ·))
    | a, [y] => pure (a.map (· + y))
    | _, _ => throw PyErr.runtimeError

/-- `bool(t)` for a tensor: `RuntimeError` unless it has exactly one entry. -/
def truthTensor (l : List Bool) : m Bool :=
  match l with
  | [b] => pure b
  | _ => throw PyErr.runtimeError

/-- odeint.py:215-216, 245-246, 262-263: `sum([(a_ != b_) & (b_ == False) for a_, b_ in zip(evid, event_states.evid)])`, where
`event_states` holds `False` for each callback. `sum` starts from the number `0`, which is broadcast. -/
def triggeredBatch (evid : List (List Bool)) : m (List Nat) :=
  (evid.map (fun e => e.map (fun a => if (a != false) && (false == false) then 1 else 0))).foldlM addTensor [0]

/-- odeint.py:217, 249 `if triggered_events > 0`. -/
def anyTriggered (evid : List (List Bool)) : m Bool := do
  let n ← triggeredBatch evid
  truthTensor (n.map (fun k => decide (0 < k)))

/-- odeint.py:266 `if triggered_events == 0`. -/
def noneTriggered (evid : List (List Bool)) : m Bool := do
  let n ← triggeredBatch evid
  truthTensor (n.map (fun k => decide (k = 0)))

/-- odeint.py:218, 276: `min([i for i, x in enumerate(evid) if x == True])`. -/
def firstActiveBatch (evid : List (List Bool)) : m Nat := do
  let flags ← evid.mapM (fun e => truthTensor e)
  firstActive flags

/-- odeint.py:212, 244, 260. -/
def eventStatesBatch {K V : Type} (callbacks : List (BatchCallback K V)) (t : K) (x : V) : List (List Bool) :=
  callbacks.map (fun cb => cb.checkEvent t x)

variable {K V : Type}
  [Add K] [Sub K] [Div K] [OfNat K 1] [OfNat K 2] [LT K] [DecidableLT K] [LE K] [DecidableLE K]

/-- odeint.py:255-273: the bisection loop, as `bisect`; the second component is `new_event_states.evid`, the field `events` of the
first one is not used. -/
def bisectBatch (cfg : HybridCfg m K V) (cbs : List (BatchCallback K V)) (dt : K) :
    (n : Nat) → BState K V × List (List Bool) → m (BState K V × List (List Bool))
  | 0, b => pure b
  | n + 1, (b, evid) =>
    if cfg.eventTol < b.dtInner then do
      let dtInner := b.dtInner / 2
      let (fNew, x_, _, _) ← (← cfg.step b.xInner b.tInner dtInner b.k1).unpack4
      let evid := eventStatesBatch cbs (b.tInner + dtInner) x_
      let none ← noneTriggered evid
      if none then
        bisectBatch cfg cbs dt n
          ({ tInner := b.tInner + dtInner, dtInner := dt, xInner := x_, k1 := some fNew, events := [] }, evid)
      else
        bisectBatch cfg cbs dt n
          ({ tInner := b.tInner, dtInner := dtInner, xInner := b.xInner, k1 := b.k1, events := [] }, evid)
    else pure (b, evid)

/-- odeint.py:250-291: the event branch, as `hybridJump`. -/
def batchJump (cfg : HybridCfg m K V) (cbs : List (BatchCallback K V)) (s : HState K V) (dt dtOld : K) (ckptFlag : Bool)
    (ckpt : Nat) (evid : List (List Bool)) : m (HState K V) := do
  let (b, evid) ← bisectBatch cfg cbs dt 100
    ({ tInner := s.t, dtInner := dt, xInner := s.x, k1 := s.k1, events := [] }, evid)
  let i ← firstActiveBatch evid
  let cb ← getItem cbs i
  let x' := cb.jumpMap b.tInner b.xInner
  pure { t := b.tInner, dt := dt, x := x', k1 := none, ckpt, ckptFlag, dtOld,
         evalTimes := s.evalTimes ++ [b.tInner] ++ [b.tInner],
         sol := s.sol ++ [b.xInner] ++ [x'] }

/-- odeint.py:229-321: one iteration of the main loop, as `hybridIter`. -/
def batchIter (cfg : HybridCfg m K V) (cbs : List (BatchCallback K V)) (tEval : List K) (T : K) (s : HState K V) :
    m (HState K V) := do
  let (dt, dtOld, ckptFlag, ckpt) := hybridDt tEval T s
  let (fNew, xNew, xErr, _) ← (← cfg.step s.x s.t dt s.k1).unpack4
  let evid := eventStatesBatch cbs (s.t + dt) xNew
  let any ← anyTriggered evid
  if any then batchJump cfg cbs s dt dtOld ckptFlag ckpt evid
  else pure (hybridFlow cfg s dt dtOld ckptFlag ckpt fNew xNew xErr)

/-- odeint.py:229, as `hybridLoop`. -/
def batchLoop (cfg : HybridCfg m K V) (cbs : List (BatchCallback K V)) (tEval : List K) (T : K) (jnum jSpan : Nat) :
    (fuel : Nat) → HState K V → m (Option (HState K V))
  | 0, _ => pure none
  | fuel + 1, s =>
    if s.t < T ∧ jnum < jSpan then do
      let s ← batchIter cfg cbs tEval T s
      batchLoop cfg cbs tEval T jnum jSpan fuel s
    else pure (some s)

/-- odeint.py:211-220: the initial jump, as `initialJump`. -/
def batchInitialJump (cbs : List (BatchCallback K V)) (jumpFirst : Bool) (t : K) (x : V) : m (V × Nat) :=
  if jumpFirst then do
    let evid := eventStatesBatch cbs t x
    let any ← anyTriggered evid
    if any then do
      let i ← firstActiveBatch evid
      let cb ← getItem cbs i
      pure (cb.jumpMap t x, 1)
    else pure (x, 0)
  else pure (x, 0)

end

open Classical in
/-- odeint.py:183-323 `odeint_hybrid` with events given by tensors, as `odeintHybrid`. -/
noncomputable def odeintHybridBatch {ι : Type} [Fintype ι] {m : Type → Type} [Monad m]
    [MonadExcept PyErr m] {A : Type} (fuel : Nat) (f : ℝ → (ι → ℝ) → m (ι → ℝ)) (x : ι → ℝ)
    (tSpan : List ℝ) (jSpan : Nat) (solver : Solver m ℝ (ι → ℝ) A)
    (cbs : List (BatchCallback ℝ (ι → ℝ))) (atol rtol eventTol : ℝ) (jumpFirst : Bool)
    (sel : Finset ι) (args : A) : m (Option (List ℝ × List (ι → ℝ))) := do
  let tEval := tSpan.drop 1
  let t ← getItem tSpan 0
  let T ← getItem tSpan (tSpan.length - 1)
  let (x, jnum) ← batchInitialJump cbs jumpFirst t x
  let k1 ← f t x
  let dt ← initStep f k1 x t solver.order atol rtol
  let cfg : HybridCfg m ℝ (ι → ℝ) :=
    { step := fun x t dt k1 => solver.step f x t dt k1 args
      errRatio := errorRatio sel atol rtol
      adapt := fun dt er => adaptStep dt er solver.safety solver.minFactor solver.maxFactor solver.order
      callbacks := [], eventTol }
  let r ← batchLoop cfg cbs tEval T jnum jSpan fuel
    { t, dt, x, k1 := some k1, ckpt := 0, ckptFlag := false, dtOld := dt, evalTimes := [t], sol := [x] }
  pure (r.map (fun s => (s.evalTimes, s.sol)))

end Torchdyn
