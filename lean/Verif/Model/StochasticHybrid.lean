import Verif.Model.Hybrid

/-!
Integration with callbacks that have attributes: /repo/torchdyn/numerics/odeint.py:183-323 `odeint_hybrid` with the callbacks of
/repo/torchdyn/numerics/utils.py:97-112 (`StochasticEventCallback`), used as in
/repo/tutorials/module2-numerics/m2c_hybrid_odeint.ipynb.
-/

namespace Torchdyn

/-- numerics/utils.py:84-112 `EventCallback` and `StochasticEventCallback` with attributes. `S` holds the attributes of all the
callbacks and the random numbers still to be drawn. `check_event` reads the attributes and returns a `bool`; `jump_map` may
replace them. -/
structure StatefulCallback (S K V : Type) where
  checkEvent : S → K → V → Bool
  jumpMap : S → K → V → S × V

/-- The callbacks as they behave while the attributes have the value `σ`. -/
def freeze {S K V : Type} (cbs : List (StatefulCallback S K V)) (σ : S) : List (EventCallback K V) :=
  cbs.map (fun cb => { checkEvent := cb.checkEvent σ, jumpMap := fun t x => (cb.jumpMap σ t x).2 })

section

variable {m : Type → Type} [Monad m] [MonadExcept PyErr m] {S K V : Type}
  [Add K] [Sub K] [Div K] [OfNat K 1] [OfNat K 2] [LT K] [DecidableLT K] [LE K] [DecidableLE K]

/-- odeint.py:250-291: the event branch. The bisection calls `check_event` only, so that the attributes change in line 284
alone. `cfg` is as in `hybridJump`, its callbacks being those of `freeze cbs σ`. -/
def statefulJump (cfg : HybridCfg m K V) (cbs : List (StatefulCallback S K V)) (σ : S) (s : HState K V) (dt dtOld : K)
    (ckptFlag : Bool) (ckpt : Nat) (evid : List Bool) : m (S × HState K V) := do
  let b ← bisect { cfg with callbacks := freeze cbs σ } dt 100
    { tInner := s.t, dtInner := dt, xInner := s.x, k1 := s.k1, events := evid }
  let i ← firstActive b.events
  let cb ← getItem cbs i
  let r := cb.jumpMap σ b.tInner b.xInner
  pure (r.1, { t := b.tInner, dt := dt, x := r.2, k1 := none, ckpt, ckptFlag, dtOld,
               evalTimes := s.evalTimes ++ [b.tInner] ++ [b.tInner],
               sol := s.sol ++ [b.xInner] ++ [r.2] })

/-- odeint.py:229-321: one iteration of the main loop. -/
def statefulIter (cfg : HybridCfg m K V) (cbs : List (StatefulCallback S K V)) (tEval : List K) (T : K)
    (st : S × HState K V) : m (S × HState K V) := do
  let (σ, s) := st
  let (dt, dtOld, ckptFlag, ckpt) := hybridDt tEval T s
  let (fNew, xNew, xErr, _) ← (← cfg.step s.x s.t dt s.k1).unpack4
  let evid := eventStates (freeze cbs σ) (s.t + dt) xNew
  if 0 < triggeredEvents evid then statefulJump cfg cbs σ s dt dtOld ckptFlag ckpt evid
  else pure (σ, hybridFlow cfg s dt dtOld ckptFlag ckpt fNew xNew xErr)

/-- odeint.py:229 `while t < T and jnum < j_span`, as `hybridLoop`. -/
def statefulLoop (cfg : HybridCfg m K V) (cbs : List (StatefulCallback S K V)) (tEval : List K) (T : K) (jnum jSpan : Nat) :
    (fuel : Nat) → S × HState K V → m (Option (S × HState K V))
  | 0, _ => pure none
  | fuel + 1, st =>
    if st.2.t < T ∧ jnum < jSpan then do
      let st ← statefulIter cfg cbs tEval T st
      statefulLoop cfg cbs tEval T jnum jSpan fuel st
    else pure (some st)

/-- odeint.py:211-220: the initial jump, when `priority == 'jump'`. Returns the attributes, `x` and `jnum`. -/
def statefulInitialJump (cbs : List (StatefulCallback S K V)) (jumpFirst : Bool) (σ : S) (t : K) (x : V) :
    m (S × V × Nat) :=
  if jumpFirst then
    let evid := eventStates (freeze cbs σ) t x
    if 0 < triggeredEvents evid then do
      let i ← firstActive evid
      let cb ← getItem cbs i
      let r := cb.jumpMap σ t x
      pure (r.1, r.2, 1)
    else pure (σ, x, 0)
  else pure (σ, x, 0)

end

open Classical in
/-- odeint.py:183-323 `odeint_hybrid` with callbacks that have attributes, as `odeintHybrid`; `σ` is the value of the attributes
at the call. `odeint_hybrid` does not call `initialize`: the attributes are what the user set before. Also returns the
attributes at the end. -/
noncomputable def odeintHybridStateful {ι S : Type} [Fintype ι] {m : Type → Type} [Monad m]
    [MonadExcept PyErr m] {A : Type} (fuel : Nat) (f : ℝ → (ι → ℝ) → m (ι → ℝ)) (x : ι → ℝ)
    (tSpan : List ℝ) (jSpan : Nat) (solver : Solver m ℝ (ι → ℝ) A)
    (cbs : List (StatefulCallback S ℝ (ι → ℝ))) (σ : S) (atol rtol eventTol : ℝ) (jumpFirst : Bool)
    (sel : Finset ι) (args : A) : m (Option (S × List ℝ × List (ι → ℝ))) := do
  let tEval := tSpan.drop 1
  let t ← getItem tSpan 0
  let T ← getItem tSpan (tSpan.length - 1)
  let (σ, x, jnum) ← statefulInitialJump cbs jumpFirst σ t x
  let k1 ← f t x
  let dt ← initStep f k1 x t solver.order atol rtol
  let cfg : HybridCfg m ℝ (ι → ℝ) :=
    { step := fun x t dt k1 => solver.step f x t dt k1 args
      errRatio := errorRatio sel atol rtol
      adapt := fun dt er => adaptStep dt er solver.safety solver.minFactor solver.maxFactor solver.order
      callbacks := [], eventTol }
  let r ← statefulLoop cfg cbs tEval T jnum jSpan fuel
    (σ, { t, dt, x, k1 := some k1, ckpt := 0, ckptFlag := false, dtOld := dt, evalTimes := [t], sol := [x] })
  pure (r.map (fun st => (st.1, st.2.evalTimes, st.2.sol)))

/-- The events of m2c_hybrid_odeint.ipynb (cell 4), one such event: `check_event` is `λ - self.s >= 0` for the entry `λ = x[j]`,
`jump_map` draws the next `self.s` and returns `g t x` (there, with `λ` set to zero). The attributes are the numbers drawn:
`self.s` (the first one, drawn by `initialize`, utils.py:103-104) and those that `expdist.sample` (utils.py:101) will return. One
state is integrated (batch size 1). -/
noncomputable def clockCallback {ι : Type} (j : ι) (g : ℝ → (ι → ℝ) → (ι → ℝ)) : StatefulCallback (ℕ → ℝ) ℝ (ι → ℝ) :=
  open Classical in
  { checkEvent := fun s _ x => decide (0 ≤ x j - s 0)
    jumpMap := fun s t x => (fun n => s (n + 1), g t x) }

end Torchdyn
