import Verif.Model.TracedHybrid
import Verif.Props.Autograd
import Verif.Props.HybridWitness

/-!
# Gradients by back-propagation through `odeint_hybrid` (C131)
-/

set_option linter.unusedSectionVars false
set_option linter.unusedSimpArgs false
set_option linter.unusedVariables false

namespace Torchdyn

open Spec

section values

/-! ### The values are those of `odeint_hybrid` -/

variable {W U : Type}

/-- The image of a step result under a map of states. -/
def StepOut.mapState (h : W → U) : StepOut W → StepOut U
  | .three k x e => .three (k.map h) (h x) (e.map h)
  | .four k x e stages => .four (h k) (h x) (h e) (stages.map h)

/-- The image of a loop state. -/
def HState.mapState (h : W → U) (s : HState ℝ W) : HState ℝ U :=
  { s with x := h s.x, k1 := s.k1.map h, sol := s.sol.map h }

/-- The image of a state of the bisection. -/
def BState.mapState (h : W → U) (b : BState ℝ W) : BState ℝ U := { b with xInner := h b.xInner, k1 := b.k1.map h }

/-- The loop parameters `cfg'` see the images of what `cfg` sees. -/
structure CfgProjects (h : W → U) (cfg : HybridCfg (Except PyErr) ℝ W) (cfg' : HybridCfg (Except PyErr) ℝ U) : Prop where
  step : ∀ x t dt k1, (cfg.step x t dt k1).map (StepOut.mapState h) = cfg'.step (h x) t dt (k1.map h)
  errRatio : ∀ x y z, cfg.errRatio x y z = cfg'.errRatio (h x) (h y) (h z)
  adapt : cfg.adapt = cfg'.adapt
  eventTol : cfg.eventTol = cfg'.eventTol
  events : ∀ t x, eventStates cfg.callbacks t x = eventStates cfg'.callbacks t (h x)
  jump : ∀ i t x, (getItem (m := Except PyErr) cfg.callbacks i).map (fun cb => h (cb.jumpMap t x)) =
    (getItem (m := Except PyErr) cfg'.callbacks i).map (fun cb => cb.jumpMap t (h x))

theorem CfgProjects.cases {h : W → U} {cfg : HybridCfg (Except PyErr) ℝ W} {cfg' : HybridCfg (Except PyErr) ℝ U}
    (hc : CfgProjects h cfg cfg') (x : W) (t dt : ℝ) (k1 : Option W) :
    (∃ e, cfg.step x t dt k1 = .error e ∧ cfg'.step (h x) t dt (k1.map h) = .error e) ∨
      (∃ k y e, cfg.step x t dt k1 = .ok (.three k y e) ∧ cfg'.step (h x) t dt (k1.map h) = .ok (.three (k.map h) (h y) (e.map h))) ∨
      ∃ k y e st, cfg.step x t dt k1 = .ok (.four k y e st) ∧
        cfg'.step (h x) t dt (k1.map h) = .ok (.four (h k) (h y) (h e) (st.map h)) := by
  rw [← hc.step]
  cases cfg.step x t dt k1 with
  | error e => exact Or.inl ⟨e, rfl, rfl⟩
  | ok r =>
    cases r with
    | three k y e => exact Or.inr (Or.inl ⟨k, y, e, rfl, rfl⟩)
    | four k y e st => exact Or.inr (Or.inr ⟨k, y, e, st, rfl, rfl⟩)

theorem bisect_project {h : W → U} {cfg : HybridCfg (Except PyErr) ℝ W} {cfg' : HybridCfg (Except PyErr) ℝ U}
    (hc : CfgProjects h cfg cfg') (dt : ℝ) (n : ℕ) (b : BState ℝ W) :
    (bisect cfg dt n b).map (BState.mapState h) = bisect cfg' dt n (b.mapState h) := by
  induction n generalizing b with
  | zero => rfl
  | succ n ih =>
    rw [bisect, bisect, ← hc.eventTol]
    have e1 : (b.mapState h).dtInner = b.dtInner := rfl
    have e2 : (b.mapState h).tInner = b.tInner := rfl
    have e3 : (b.mapState h).xInner = h b.xInner := rfl
    have e4 : (b.mapState h).k1 = b.k1.map h := rfl
    rw [e1, e2, e3, e4]
    by_cases ht : cfg.eventTol < b.dtInner
    swap
    · rw [if_neg ht, if_neg ht]
      rfl
    rw [if_pos ht, if_pos ht]
    simp only
    rcases hc.cases b.xInner b.tInner (b.dtInner / 2) b.k1 with ⟨e, h1, h2⟩ | ⟨k, y, e, h1, h2⟩ | ⟨k, y, e, st, h1, h2⟩
    · rw [h1, h2]
      rfl
    · rw [h1, h2]
      rfl
    · simp only [h1, h2, bind, Except.bind, StepOut.unpack4, pure, Except.pure, ← hc.events]
      split
      · exact ih _
      · exact ih _

/-- One iteration with the bisection under `no_grad`, as it is without. -/
theorem iter_project {Q V : Type} [NormedAddCommGroup Q] [NormedSpace ℝ Q] [NormedAddCommGroup V] [NormedSpace ℝ V]
    {cfg : HybridCfg (Except PyErr) ℝ (Traced Q V)} {cfg' : HybridCfg (Except PyErr) ℝ V} (hc : CfgProjects Prod.fst cfg cfg')
    (tEval : List ℝ) (T : ℝ) (s : HState ℝ (Traced Q V)) :
    (tracedHybridIter cfg tEval T s).map (HState.mapState Prod.fst) = hybridIter cfg' tEval T (s.mapState Prod.fst) := by
  have hn : CfgProjects Prod.fst cfg.noGrad cfg' := by
    refine ⟨fun x t dt k1 => ?_, hc.errRatio, hc.adapt, hc.eventTol, hc.events, hc.jump⟩
    rw [← hc.step]
    simp only [HybridCfg.noGrad]
    cases cfg.step x t dt k1 with
    | error e => rfl
    | ok r =>
      cases r with
      | three k y e => cases k <;> cases e <;> rfl
      | four k y e st =>
        simp [bind, Except.bind, pure, Except.pure, Except.map, StepOut.detach, StepOut.mapState, leaf, Function.comp_def]
  unfold tracedHybridIter hybridIter
  have e0 : hybridDt tEval T (s.mapState Prod.fst) = hybridDt tEval T s := rfl
  rw [e0]
  generalize hybridDt tEval T s = d
  obtain ⟨dt, dtOld, ckptFlag, ckpt⟩ := d
  simp only
  have e2 : (s.mapState Prod.fst).t = s.t := rfl
  have e3 : (s.mapState Prod.fst).x = s.x.1 := rfl
  have e4 : (s.mapState Prod.fst).k1 = s.k1.map Prod.fst := rfl
  rw [e2, e3, e4]
  rcases hc.cases s.x s.t dt s.k1 with ⟨e, h1, h2⟩ | ⟨k, y, e, h1, h2⟩ | ⟨k, y, e, st, h1, h2⟩
  · rw [h1, h2]
    rfl
  · rw [h1, h2]
    rfl
  · simp only [h1, h2, bind, Except.bind, StepOut.unpack4, pure, Except.pure, ← hc.events]
    split
    · unfold hybridJump
      have hb := bisect_project hn dt 100
        ⟨s.t, dt, s.x, s.k1, eventStates cfg.callbacks (s.t + dt) y⟩
      change _ = bisect cfg' dt 100 ⟨s.t, dt, s.x.1, s.k1.map Prod.fst, eventStates cfg.callbacks (s.t + dt) y⟩ at hb
      simp only [e2, e3, e4, ← hb, bind, Except.bind]
      cases bisect cfg.noGrad dt 100
        ⟨s.t, dt, s.x, s.k1, eventStates cfg.callbacks (s.t + dt) y⟩ with
      | error e => rfl
      | ok b =>
        have eb : (BState.mapState Prod.fst b).events = b.events := rfl
        simp only [Except.map, eb]
        cases firstActive (m := Except PyErr) b.events with
        | error e => rfl
        | ok i =>
          have hj := hc.jump i b.tInner b.xInner
          have hcb : cfg.noGrad.callbacks = cfg.callbacks := rfl
          simp only [hcb]
          revert hj
          cases getItem (m := Except PyErr) cfg.callbacks i with
          | error e =>
            intro hj
            cases hg : getItem (m := Except PyErr) cfg'.callbacks i with
            | error e' =>
              rw [hg] at hj
              cases hj
              rfl
            | ok cb =>
              rw [hg] at hj
              cases hj
          | ok cb =>
            intro hj
            cases hg : getItem (m := Except PyErr) cfg'.callbacks i with
            | error e' =>
              rw [hg] at hj
              cases hj
            | ok cb' =>
              rw [hg] at hj
              simp only [Except.map, Except.ok.injEq] at hj
              simp [Except.map, pure, Except.pure, HState.mapState, BState.mapState, hj]
    · simp only [Except.map, hybridFlow, e2, e3, ← hc.errRatio, ← hc.adapt]
      split <;> simp [HState.mapState]

theorem loop_project {Q V : Type} [NormedAddCommGroup Q] [NormedSpace ℝ Q] [NormedAddCommGroup V] [NormedSpace ℝ V]
    {cfg : HybridCfg (Except PyErr) ℝ (Traced Q V)} {cfg' : HybridCfg (Except PyErr) ℝ V} (hc : CfgProjects Prod.fst cfg cfg')
    (tEval : List ℝ) (T : ℝ) (j jS fuel : ℕ) (s : HState ℝ (Traced Q V)) :
    (tracedHybridLoop cfg tEval T j jS fuel s).map (Option.map (HState.mapState Prod.fst)) =
      hybridLoop cfg' tEval T j jS fuel (s.mapState Prod.fst) := by
  induction fuel generalizing s with
  | zero => rfl
  | succ fuel ih =>
    rw [tracedHybridLoop, hybridLoop]
    have e2 : (s.mapState Prod.fst).t = s.t := rfl
    rw [e2]
    split
    · rw [← iter_project hc]
      cases tracedHybridIter cfg tEval T s with
      | error e => rfl
      | ok s' => exact ih s'
    · rfl

end values

section

variable {Q A : Type} [NormedAddCommGroup Q] [NormedSpace ℝ Q]

/-- The solver in the graph has the constants and the values of the solver without. -/
structure SolverProjects {V : Type} [NormedAddCommGroup V] [NormedSpace ℝ V] (tsolver : Solver (Except PyErr) ℝ (Traced Q V) A)
    (solver : Solver (Except PyErr) ℝ V A) : Prop where
  step : ∀ (f : Q → ℝ → V → V) (q : Q) x t dt k1 args,
    (tsolver.step (pureField (tracedField f q)) x t dt k1 args).map (StepOut.mapState Prod.fst) =
      solver.step (pureField (f q)) x.1 t dt (k1.map Prod.fst) args
  order : tsolver.order = solver.order
  safety : tsolver.safety = solver.safety
  minFactor : tsolver.minFactor = solver.minFactor
  maxFactor : tsolver.maxFactor = solver.maxFactor

theorem dopri5_projects {V : Type} [NormedAddCommGroup V] [NormedSpace ℝ V] :
    SolverProjects (dopri5Solver (Except PyErr) ℝ (Traced Q V) A) (dopri5Solver (Except PyErr) ℝ V A) :=
  ⟨fun f q x t dt k1 args => by cases k1 <;> rfl, rfl, rfl, rfl, rfl⟩

theorem tsit5_projects {V : Type} [NormedAddCommGroup V] [NormedSpace ℝ V] :
    SolverProjects (tsit5Solver (Except PyErr) ℝ (Traced Q V) A) (tsit5Solver (Except PyErr) ℝ V A) :=
  ⟨fun f q x t dt k1 args => by cases k1 <;> rfl, rfl, rfl, rfl, rfl⟩

theorem initialJump_project {V : Type} [NormedAddCommGroup V] [NormedSpace ℝ V] (cbs : List (InputCallback Q V)) (q : Q)
    (jumpFirst : Bool) (t : ℝ) (x : Traced Q V) :
    (initialJump (m := Except PyErr) (cbs.map fun cb => cb.traced q) jumpFirst t x).map (fun r => (r.1.1, r.2)) =
      initialJump (cbs.map fun cb => cb.plain q) jumpFirst t x.1 := by
  have he : eventStates (cbs.map fun cb => cb.traced q) t x = eventStates (cbs.map fun cb => cb.plain q) t x.1 := by
    simp [eventStates, InputCallback.traced, InputCallback.plain]
  unfold initialJump
  rw [← he]
  cases jumpFirst
  · rfl
  simp only [if_true]
  split
  · cases firstActive (m := Except PyErr) (eventStates (cbs.map fun cb => cb.traced q) t x) with
    | error e => rfl
    | ok i =>
      simp only [getItem, bind, Except.bind, List.getElem?_map]
      cases cbs[i]? <;> rfl
  · rfl

theorem hybrid_values {ι : Type} [Fintype ι] {tsolver : Solver (Except PyErr) ℝ (Traced Q (ι → ℝ)) A}
    {solver : Solver (Except PyErr) ℝ (ι → ℝ) A} (hs : SolverProjects tsolver solver) (fuel : ℕ) (f : Q → ℝ → (ι → ℝ) → (ι → ℝ)) (q : Q)
    (x : Traced Q (ι → ℝ)) (tSpan : List ℝ) (jSpan : ℕ) (cbs : List (InputCallback Q (ι → ℝ))) (atol rtol eventTol : ℝ)
    (jumpFirst : Bool) (sel : Finset ι) (args : A) :
    (tracedOdeintHybrid fuel f q x tSpan jSpan tsolver cbs atol rtol eventTol jumpFirst sel args).map
        (Option.map fun r => (r.1, r.2.map Prod.fst)) =
      odeintHybrid fuel (pureField (f q)) x.1 tSpan jSpan solver (cbs.map fun cb => cb.plain q) atol rtol eventTol jumpFirst sel args := by
  unfold tracedOdeintHybrid odeintHybrid
  cases getItem (m := Except PyErr) tSpan 0 with
  | error e => rfl
  | ok t =>
    cases getItem (m := Except PyErr) tSpan (tSpan.length - 1) with
    | error e => rfl
    | ok T =>
      simp only [bind, Except.bind]
      rw [← initialJump_project]
      cases initialJump (m := Except PyErr) (cbs.map fun cb => cb.traced q) jumpFirst t x with
      | error e => rfl
      | ok r =>
        obtain ⟨x, j⟩ := r
        simp only [Except.map, hs.order]
        have hp : pureField (m := Except PyErr) (f q) t x.1 = .ok (f q t x.1) := rfl
        have hk : (tracedField f q t x).1 = f q t x.1 := rfl
        simp only [hp, hk]
        cases initStep (m := Except PyErr) (pureField (f q)) (f q t x.1) x.1 t solver.order atol rtol with
        | error e => rfl
        | ok dt =>
          simp only
          have hc : CfgProjects Prod.fst
              { step := fun x t dt k1 => tsolver.step (pureField (tracedField f q)) x t dt k1 args
                errRatio := fun x xNew xErr => errorRatio sel atol rtol x.1 xNew.1 xErr.1
                adapt := fun dt er => adaptStep dt er tsolver.safety tsolver.minFactor tsolver.maxFactor solver.order
                callbacks := cbs.map fun cb => cb.traced q
                eventTol }
              ({ step := fun x t dt k1 => solver.step (pureField (f q)) x t dt k1 args
                 errRatio := errorRatio sel atol rtol
                 adapt := fun dt er => adaptStep dt er solver.safety solver.minFactor solver.maxFactor solver.order
                 callbacks := cbs.map fun cb => cb.plain q
                 eventTol } : HybridCfg (Except PyErr) ℝ (ι → ℝ)) := by
            refine ⟨fun x t dt k1 => hs.step f q x t dt k1 args, fun _ _ _ => rfl, ?_, rfl, fun t x => ?_, fun i t x => ?_⟩
            · simp only [hs.safety, hs.minFactor, hs.maxFactor]
            · simp [eventStates, InputCallback.traced, InputCallback.plain]
            · simp only [getItem, List.getElem?_map]
              cases cbs[i]? <;> rfl
          have hl := loop_project hc (tSpan.drop 1) T j jSpan fuel
            { t, dt, x, k1 := some (tracedField f q t x), ckpt := 0, ckptFlag := false, dtOld := dt, evalTimes := [t], sol := [x] }
          change _ = hybridLoop _ (tSpan.drop 1) T j jSpan fuel
            { t, dt, x := x.1, k1 := some (f q t x.1), ckpt := 0, ckptFlag := false, dtOld := dt, evalTimes := [t], sol := [x.1] } at hl
          rw [← hl]
          generalize tracedHybridLoop (Q := Q) (V := ι → ℝ) _ (tSpan.drop 1) T j jSpan fuel _ = r
          cases r with
          | error e => rfl
          | ok r => cases r <;> rfl

/-- **C131 (values).** With `dopri5` and `tsit5` the run of `odeint_hybrid` in the graph has the values, or the error, of the run
without. -/
theorem C131_values {ι : Type} [Fintype ι] (fuel : ℕ) (f : Q → ℝ → (ι → ℝ) → (ι → ℝ)) (q : Q) (x : Traced Q (ι → ℝ)) (tSpan : List ℝ)
    (jSpan : ℕ) (cbs : List (InputCallback Q (ι → ℝ))) (atol rtol eventTol : ℝ) (jumpFirst : Bool) (sel : Finset ι) (args : A) :
    (tracedOdeintHybrid fuel f q x tSpan jSpan (dopri5Solver (Except PyErr) ℝ (Traced Q (ι → ℝ)) A) cbs atol rtol eventTol jumpFirst sel
        args).map (Option.map fun r => (r.1, r.2.map Prod.fst)) =
      odeintHybrid fuel (pureField (f q)) x.1 tSpan jSpan (dopri5Solver (Except PyErr) ℝ (ι → ℝ) A) (cbs.map fun cb => cb.plain q) atol
        rtol eventTol jumpFirst sel args ∧
    (tracedOdeintHybrid fuel f q x tSpan jSpan (tsit5Solver (Except PyErr) ℝ (Traced Q (ι → ℝ)) A) cbs atol rtol eventTol jumpFirst sel
        args).map (Option.map fun r => (r.1, r.2.map Prod.fst)) =
      odeintHybrid fuel (pureField (f q)) x.1 tSpan jSpan (tsit5Solver (Except PyErr) ℝ (ι → ℝ) A) (cbs.map fun cb => cb.plain q) atol
        rtol eventTol jumpFirst sel args :=
  ⟨hybrid_values dopri5_projects .., hybrid_values tsit5_projects ..⟩

/-! ### Events cut the graph -/

theorem bisect_noGrad {V : Type} [NormedAddCommGroup V] [NormedSpace ℝ V] (cfg : HybridCfg (Except PyErr) ℝ (Traced Q V)) (dt : ℝ) (n : ℕ)
    (b b' : BState ℝ (Traced Q V)) (h : bisect cfg.noGrad dt n b = .ok b') : b'.xInner = b.xInner ∨ b'.xInner.2 = 0 := by
  induction n generalizing b with
  | zero =>
    cases h
    exact Or.inl rfl
  | succ n ih =>
    rw [bisect] at h
    split at h
    · have hng : cfg.noGrad.step b.xInner b.tInner (b.dtInner / 2) b.k1 =
          (cfg.step b.xInner b.tInner (b.dtInner / 2) b.k1).map StepOut.detach := by
        simp only [HybridCfg.noGrad]
        cases cfg.step b.xInner b.tInner (b.dtInner / 2) b.k1 <;> rfl
      simp only [hng] at h
      cases hst : cfg.step b.xInner b.tInner (b.dtInner / 2) b.k1 with
      | error e =>
        rw [hst] at h
        cases h
      | ok r =>
        rw [hst] at h
        cases r with
        | three k y e => cases h
        | four k y e st =>
          simp only [Except.map, StepOut.detach, StepOut.unpack4, pure, Except.pure, bind, Except.bind] at h
          split at h
          · rcases ih _ h with h' | h'
            · exact Or.inr (by rw [h']; rfl)
            · exact Or.inr h'
          · exact (ih ⟨b.tInner, b.dtInner / 2, b.xInner, b.k1, _⟩ h)
    · cases h
      exact Or.inl rfl

/-- **C131**, refuted: whatever the field, the solver and the callbacks, an iteration in which an event is seen appends the state
before and the state after the jump, and the state before the jump has derivative zero with respect to all inputs, unless the bisection
did not advance at all and it is the state before the step. -/
theorem C131_event_refuted {V : Type} [NormedAddCommGroup V] [NormedSpace ℝ V] (cfg : HybridCfg (Except PyErr) ℝ (Traced Q V))
    (tEval : List ℝ) (T : ℝ) (s s' : HState ℝ (Traced Q V)) (h : tracedHybridIter cfg tEval T s = .ok s') (k y e : Traced Q V)
    (st : List (Traced Q V)) (hstep : cfg.step s.x s.t (hybridDt tEval T s).1 s.k1 = .ok (.four k y e st))
    (hev : ∃ cb ∈ cfg.callbacks, cb.checkEvent (s.t + (hybridDt tEval T s).1) y = true) :
    ∃ before, s'.sol = s.sol ++ [before, s'.x] ∧ (before = s.x ∨ before.2 = 0) ∧
      ∃ cb ∈ cfg.callbacks, s'.x = cb.jumpMap s'.t before := by
  unfold tracedHybridIter at h
  revert h hstep hev
  generalize hybridDt tEval T s = d
  obtain ⟨dt, dtOld, ckptFlag, ckpt⟩ := d
  intro h hstep hev
  have htr : 0 < triggeredEvents (eventStates cfg.callbacks (s.t + dt) y) := by
    refine Nat.pos_of_ne_zero fun h0 => ?_
    rw [triggeredEvents_eq_zero] at h0
    obtain ⟨cb, hcb, hc⟩ := hev
    have := h0 true (by
      rw [eventStates, List.mem_map]
      exact ⟨cb, hcb, hc⟩)
    cases this
  simp only [hstep, bind, Except.bind, StepOut.unpack4, pure, Except.pure, if_pos htr] at h
  unfold hybridJump at h
  cases hb : bisect cfg.noGrad dt 100 ⟨s.t, dt, s.x, s.k1, eventStates cfg.callbacks (s.t + dt) y⟩ with
  | error e =>
    rw [hb] at h
    cases h
  | ok b =>
    rw [hb] at h
    simp only [bind, Except.bind] at h
    cases hi : firstActive (m := Except PyErr) b.events with
    | error e =>
      rw [hi] at h
      cases h
    | ok i =>
      rw [hi] at h
      have hcb : cfg.noGrad.callbacks = cfg.callbacks := rfl
      simp only [hcb] at h
      cases hg : getItem (m := Except PyErr) cfg.callbacks i with
      | error e =>
        rw [hg] at h
        cases h
      | ok cb =>
        rw [hg] at h
        cases h
        refine ⟨b.xInner, by simp, bisect_noGrad cfg _ _ _ _ hb, cb, ?_, rfl⟩
        unfold getItem at hg
        split at hg
        · rename_i v hv
          cases hg
          exact List.mem_of_getElem? hv
        · cases hg

end

/-! ### A run -/

open Classical in
/-- Active from `0.9e-6` on while the state is below `1/2`; the jump adds 1. -/
noncomputable def lateCb : InputCallback ℝ (Unit → ℝ) :=
  ⟨fun t x => decide (x () < 1 / 2 ∧ 9 / 10 ^ 7 ≤ t), fun _ _ x => fun _ => x () + 1⟩

theorem lateCb_on {t : ℝ} {x : Unit → ℝ} (h : x () < 1 / 2) (ht : 9 / 10 ^ 7 ≤ t) : lateCb.checkEvent t x = true := by
  simp only [lateCb, decide_eq_true_eq]
  exact ⟨h, ht⟩

theorem lateCb_off {t : ℝ} {x : Unit → ℝ} (h : 1 / 2 ≤ x () ∨ t < 9 / 10 ^ 7) : lateCb.checkEvent t x = false := by
  simp only [lateCb, decide_eq_false_iff_not, not_and, not_le]
  intro h1
  rcases h with h | h
  · exact absurd h1 (not_lt.2 h)
  · exact h

theorem small_initStep {x : ℝ} (hx : |x| < 1 / 10 ^ 9) (t0 : ℝ) :
    initStep (m := Except PyErr) (pureField zeroField) 0 (fun _ : Unit => x) t0 5 (1 / 1000) (1 / 1000) = .ok (1 / 10 ^ 6) := by
  have h0 : hairerNorm (fun _ : Unit => x / (1 / 1000 + |x| * (1 / 1000))) < 1 / 10 ^ 5 := by
    have e : hairerNorm (fun _ : Unit => x / (1 / 1000 + |x| * (1 / 1000))) = |x / (1 / 1000 + |x| * (1 / 1000))| := by
      simp [hairerNorm, hairerNormOn, Real.sqrt_sq_eq_abs]
    rw [e, abs_div, div_lt_iff₀ (by positivity), abs_of_pos (by positivity : (0 : ℝ) < 1 / 1000 + |x| * (1 / 1000))]
    nlinarith [abs_nonneg x]
  have ht : ∀ d, initTrial (hairerNorm (fun _ : Unit => x / (1 / 1000 + |x| * (1 / 1000)))) d = 1 / 10 ^ 6 := by
    intro d
    unfold initTrial
    rw [if_pos (Or.inl h0)]
  have hz : (hairerNorm fun i : Unit => (0 : Unit → ℝ) i / (1 / 1000 + |x| * (1 / 1000))) = 0 := by
    simp [hairerNorm, hairerNormOn]
  have hz' : (hairerNorm fun i : Unit => (0 : ℝ) / (1 / 1000 + |x| * (1 / 1000))) = 0 := by
    simp [hairerNorm, hairerNormOn]
  simp only [initStep, pureField, bind, Except.bind, pure, Except.pure, zeroField, sub_self, Pi.zero_apply, hz, hz', ht]
  congr 1
  unfold initSecond
  rw [if_pos (by norm_num)]
  norm_num

/-- Without graph: the state before the jump is the initial state. -/
theorem lateCb_run {x : ℝ} (hx : |x| < 1 / 10 ^ 9) :
    odeintHybrid 3 (pureField zeroField) (fun _ => x) [0, 1 / 10 ^ 6] 1 wSolver [lateCb.plain 0] (1 / 1000) (1 / 1000) (6 / 10 ^ 7) false
      Finset.univ () =
      .ok (some ([0, 5 / 10 ^ 7, 5 / 10 ^ 7, 1 / 10 ^ 6], [fun _ => x, fun _ => x, fun _ => x + 1, fun _ => x + 1])) := by
  have hx1 := abs_lt.1 hx
  have ho : wSolver.order = 5 := rfl
  have hz : zeroField 0 (fun _ => x) = 0 := rfl
  have hon : ∀ t (y : Unit → ℝ), y () < 1 / 2 → 9 / 10 ^ 7 ≤ t → triggeredEvents (eventStates [lateCb.plain 0] t y) ≠ 0 := by
    intro t y h h'
    rw [Ne, triggered_quiet]
    simp only [Quiet, List.mem_singleton, forall_eq]
    have : (lateCb.plain 0).checkEvent t y = true := lateCb_on h h'
    rw [this]
    simp
  have hoff : ∀ t (y : Unit → ℝ), 1 / 2 ≤ y () ∨ t < 9 / 10 ^ 7 → triggeredEvents (eventStates [lateCb.plain 0] t y) = 0 := by
    intro t y h
    rw [triggered_quiet]
    simp only [Quiet, List.mem_singleton, forall_eq]
    exact lateCb_off h
  have hloop : odeintHybrid 3 (pureField zeroField) (fun _ => x) [0, 1 / 10 ^ 6] 1 wSolver [lateCb.plain 0] (1 / 1000) (1 / 1000)
        (6 / 10 ^ 7) false Finset.univ () =
      (hybridLoop (wCfg [lateCb.plain 0] (6 / 10 ^ 7)) [1 / 10 ^ 6] (1 / 10 ^ 6) 0 1 3
        (hybridInit 0 (fun _ => x) 0 (1 / 10 ^ 6))).map (Option.map (fun s => (s.evalTimes, s.sol))) := by
    rw [odeintHybrid_eq 3 zeroField _ 0 (1 / 10 ^ 6) [1 / 10 ^ 6] rfl]
    simp only [initialJump, bind, Except.bind, pure, Except.pure, if_false, Bool.false_eq_true, ho, hz, small_initStep hx]
    cases hybridLoop (wCfg [lateCb.plain 0] (6 / 10 ^ 7)) [1 / 10 ^ 6] (1 / 10 ^ 6) 0 1 3 (hybridInit 0 (fun _ => x) 0 (1 / 10 ^ 6)) <;> rfl
  rw [hloop]
  have hb : bisect (wCfg [lateCb.plain 0] (6 / 10 ^ 7)) (1 / 10 ^ 6) 100
      (bisectStart (hybridInit 0 (fun _ => x) 0 (1 / 10 ^ 6)) (1 / 10 ^ 6)
        (eventStates [lateCb.plain 0] (0 + 1 / 10 ^ 6) (fun _ => x))) =
      .ok ⟨5 / 10 ^ 7, 5 / 10 ^ 7, fun _ => x, some 0, [true]⟩ := by
    rw [zero_bisect (Or.inr rfl) (by norm_num [bisectStart]), if_pos (hoff _ _ (by norm_num [bisectStart, hybridInit]))]
    rw [zero_bisect (Or.inr rfl) (by norm_num),
      if_neg (hon _ _ (by change x < _; linarith [hx1.2]) (by norm_num [bisectStart, hybridInit]))]
    rw [zero_bisect_stop (by norm_num)]
    have hl : eventStates [lateCb.plain 0] (0 + 1 / 10 ^ 6 / 2 + 1 / 10 ^ 6 / 2) (fun _ => x) = [true] := by
      simp only [eventStates, List.map_cons, List.map_nil]
      have : (lateCb.plain 0).checkEvent (0 + 1 / 10 ^ 6 / 2 + 1 / 10 ^ 6 / 2) (fun _ => x) = true :=
        lateCb_on (x := fun _ => x) (by linarith [hx1.2]) (by norm_num)
      rw [this]
    have hh : (1 / 10 ^ 6 / 2 : ℝ) = 5 / 10 ^ 7 := by norm_num
    simp only [bisectStart, hybridInit]
    rw [hl, hh, zero_add]
  rw [loop_step (afterJump _ (1 / 10 ^ 6, 1 / 10 ^ 6, false, 0)
      ⟨5 / 10 ^ 7, 5 / 10 ^ 7, fun _ => x, some 0, [true]⟩ (lateCb.plain 0))
    (by norm_num [hybridInit]) (by norm_num)
    (zero_jump _ (by norm_num [hybridDt, hybridInit]) (Or.inr rfl)
      (by
        rw [← triggered_quiet]
        exact hon _ _ (by change x < _; linarith [hx1.2]) (by norm_num [hybridInit])) _ hb 0 rfl (lateCb.plain 0) rfl)]
  rw [loop_step (zFlow _ (5 / 10 ^ 7, 1 / 10 ^ 6, false, 0)) (by norm_num [hybridInit, afterJump]) (by norm_num)
    (zero_flow _ (by norm_num [hybridDt, hybridInit, afterJump]) (Or.inl rfl)
      (by
        rw [← triggered_quiet]
        exact hoff _ _ (Or.inl (by change 1 / 2 ≤ x + 1; linarith [hx1.1]))))]
  rw [loop_stop (by norm_num [hybridInit, zFlow, afterJump])]
  norm_num [hybridInit, zFlow, afterJump, lateCb, InputCallback.plain, Except.map]

/-- The zero field as a field with an (ignored) input. -/
def inputZero : ℝ → ℝ → (Unit → ℝ) → (Unit → ℝ) := fun _ => zeroField

theorem inputZero_traced (q : ℝ) : tracedField inputZero q = fun _ _ => 0 := by
  funext t y
  have h : (fun p : ℝ × (Unit → ℝ) => inputZero p.1 t p.2) = fun _ => 0 := rfl
  simp only [tracedField, h, fderiv_fun_const]
  rfl

theorem lateCb_traced (q t : ℝ) (y : Traced ℝ (Unit → ℝ)) : (lateCb.traced q).jumpMap t y = (fun _ => y.1 () + 1, y.2) := by
  have h : (fun p : ℝ × (Unit → ℝ) => lateCb.jumpMap p.1 t p.2) = fun p => p.2 + fun _ => 1 := by
    funext p u
    rfl
  have hd : fderiv ℝ (fun p : ℝ × (Unit → ℝ) => p.2 + fun _ => (1 : ℝ)) (q, y.1) = ContinuousLinearMap.snd ℝ ℝ (Unit → ℝ) := by
    rw [fderiv_add_const]
    exact fderiv_snd
  simp only [InputCallback.traced, tracedField, h, hd]
  refine Prod.ext ?_ ?_
  · rfl
  · ext
    rfl

theorem traced_zero_step (t dt : ℝ) (x : Traced ℝ (Unit → ℝ)) (k1 : Option (Traced ℝ (Unit → ℝ))) (hk : k1 = none ∨ k1 = some 0) :
    ∃ st, (dopri5Solver (Except PyErr) ℝ (Traced ℝ (Unit → ℝ)) Unit).step (pureField fun _ _ => 0) x t dt k1 () =
      .ok (.four 0 x 0 st) := by
  have aux : ∀ r, (dopri5Solver (Except PyErr) ℝ (Traced ℝ (Unit → ℝ)) Unit).step (pureField fun _ _ => 0) x t dt k1 () = .ok r →
      ∃ st, r = .four 0 x 0 st := by
    intro r h
    rcases hk with rfl | rfl <;> cases h <;> simp [pureField]
  rcases hk with rfl | rfl
  · obtain ⟨st, h⟩ := aux _ rfl
    exact ⟨st, congrArg _ h⟩
  · obtain ⟨st, h⟩ := aux _ rfl
    exact ⟨st, congrArg _ h⟩

/-- The parameters of the loop of the run in a graph. -/
noncomputable def lateCbCfg : HybridCfg (Except PyErr) ℝ (Traced ℝ (Unit → ℝ)) :=
  { step := fun x t dt k1 =>
      (dopri5Solver (Except PyErr) ℝ (Traced ℝ (Unit → ℝ)) Unit).step (pureField fun _ _ => 0) x t dt k1 ()
    errRatio := fun x xNew xErr => errorRatio Finset.univ (1 / 1000) (1 / 1000) x.1 xNew.1 xErr.1
    adapt := fun dt er => adaptStep dt er wSolver.safety wSolver.minFactor wSolver.maxFactor wSolver.order
    callbacks := [lateCb.traced 0]
    eventTol := 6 / 10 ^ 7 }

/-- The run in a graph, from `θ = 0`: the state at the event and everything after it has lost its derivative. -/
theorem lateCb_traced_run (D : ℝ →L[ℝ] (Unit → ℝ)) :
    tracedOdeintHybrid 3 inputZero 0 (fun _ => 0, D) [0, 1 / 10 ^ 6] 1 (dopri5Solver (Except PyErr) ℝ (Traced ℝ (Unit → ℝ)) Unit) [lateCb]
      (1 / 1000) (1 / 1000) (6 / 10 ^ 7) false Finset.univ () =
      .ok (some ([0, 5 / 10 ^ 7, 5 / 10 ^ 7, 1 / 10 ^ 6],
        [(fun _ => 0, D), (fun _ => 0, 0), (fun _ => 1, 0), (fun _ => 1, 0)])) := by
  have hstep : ∀ x t dt k1, k1 = none ∨ k1 = some 0 → ∃ st, lateCbCfg.step x t dt k1 = .ok (.four 0 x 0 st) :=
    fun x t dt k1 hk => traced_zero_step t dt x k1 hk
  have hng : ∀ x t dt k1, k1 = none ∨ k1 = some 0 → ∃ st, lateCbCfg.noGrad.step x t dt k1 = .ok (.four 0 (leaf x.1) 0 st) := by
    intro x t dt k1 hk
    obtain ⟨st, h⟩ := hstep x t dt k1 hk
    refine ⟨st.map fun y => leaf y.1, ?_⟩
    simp only [HybridCfg.noGrad, h]
    rfl
  have hcb : lateCbCfg.callbacks = [lateCb.traced 0] := rfl
  have hcb' : lateCbCfg.noGrad.callbacks = [lateCb.traced 0] := rfl
  have htol : lateCbCfg.noGrad.eventTol = 6 / 10 ^ 7 := rfl
  have hon : ∀ t (y : Traced ℝ (Unit → ℝ)), y.1 () < 1 / 2 → 9 / 10 ^ 7 ≤ t → eventStates [lateCb.traced 0] t y = [true] := by
    intro t y h h'
    exact congrArg (fun b => [b]) (lateCb_on h h')
  have hoff : ∀ t (y : Traced ℝ (Unit → ℝ)), 1 / 2 ≤ y.1 () ∨ t < 9 / 10 ^ 7 → eventStates [lateCb.traced 0] t y = [false] := by
    intro t y h
    exact congrArg (fun b => [b]) (lateCb_off h)
  have ht1 : triggeredEvents [true] = 1 := rfl
  have ht0 : triggeredEvents [false] = 0 := rfl
  have her : ∀ x, lateCbCfg.errRatio x x 0 = 0 := by
    intro x
    simp [lateCbCfg, errorRatio, hairerNormOn, errorScaled]
  -- the bisection
  have hb : bisect lateCbCfg.noGrad (1 / 10 ^ 6) 100 ⟨0, 1 / 10 ^ 6, (fun _ => 0, D), some 0, [true]⟩ =
      .ok ⟨5 / 10 ^ 7, 5 / 10 ^ 7, (fun _ => 0, 0), some 0, [true]⟩ := by
    rw [bisect, if_pos (by rw [htol]; norm_num)]
    obtain ⟨st, h⟩ := hng (fun _ => 0, D) 0 (1 / 10 ^ 6 / 2) (some 0) (Or.inr rfl)
    simp only [h, bind, Except.bind, StepOut.unpack4, pure, Except.pure, hcb']
    rw [hoff _ _ (Or.inr (by norm_num)), ht0, if_pos rfl]
    rw [bisect, if_pos (by rw [htol]; norm_num)]
    obtain ⟨st, h⟩ := hng (leaf fun _ => 0) (0 + 1 / 10 ^ 6 / 2) (1 / 10 ^ 6 / 2) (some 0) (Or.inr rfl)
    simp only [h, bind, Except.bind, StepOut.unpack4, pure, Except.pure, hcb']
    rw [hon _ _ (by change (0 : ℝ) < _; norm_num) (by norm_num), ht1, if_neg one_ne_zero]
    rw [bisect, if_neg (by rw [htol]; norm_num)]
    have hh : (1 / 10 ^ 6 / 2 : ℝ) = 5 / 10 ^ 7 := by norm_num
    rw [hh, zero_add]
    rfl
  -- the two iterations
  have h1 : tracedHybridIter lateCbCfg [1 / 10 ^ 6] (1 / 10 ^ 6)
      ⟨0, 1 / 10 ^ 6, (fun _ => 0, D), some 0, 0, false, 1 / 10 ^ 6, [0], [(fun _ => 0, D)]⟩ =
      .ok ⟨5 / 10 ^ 7, 1 / 10 ^ 6, (fun _ => 1, 0), none, 0, false, 1 / 10 ^ 6, [0, 5 / 10 ^ 7, 5 / 10 ^ 7],
        [(fun _ => 0, D), (fun _ => 0, 0), (fun _ => 1, 0)]⟩ := by
    have hd : hybridDt [1 / 10 ^ 6] (1 / 10 ^ 6)
        (⟨0, 1 / 10 ^ 6, (fun _ => 0, D), some 0, 0, false, 1 / 10 ^ 6, [0], [(fun _ => 0, D)]⟩ : HState ℝ (Traced ℝ (Unit → ℝ))) =
        (1 / 10 ^ 6, 1 / 10 ^ 6, false, 0) := by norm_num [hybridDt]
    obtain ⟨st, h⟩ := hstep (fun _ => 0, D) 0 (1 / 10 ^ 6) (some 0) (Or.inr rfl)
    simp only [tracedHybridIter, hd, h, bind, Except.bind, StepOut.unpack4, pure, Except.pure, hcb]
    rw [hon _ _ (by change (0 : ℝ) < _; norm_num) (by norm_num), ht1, if_pos one_pos]
    have hf : firstActive (m := Except PyErr) [true] = .ok 0 := rfl
    have hg : getItem (m := Except PyErr) [lateCb.traced (0 : ℝ)] 0 = .ok (lateCb.traced 0) := rfl
    simp only [hybridJump, hb, bind, Except.bind, hf, hcb', hg, lateCb_traced, zero_add]
    rfl
  have h2 : tracedHybridIter lateCbCfg [1 / 10 ^ 6] (1 / 10 ^ 6)
      ⟨5 / 10 ^ 7, 1 / 10 ^ 6, (fun _ => 1, 0), none, 0, false, 1 / 10 ^ 6, [0, 5 / 10 ^ 7, 5 / 10 ^ 7],
        [(fun _ => 0, D), (fun _ => 0, 0), (fun _ => 1, 0)]⟩ =
      .ok ⟨1 / 10 ^ 6, lateCbCfg.adapt (5 / 10 ^ 7) 0, (fun _ => 1, 0), some 0, 0, false, 1 / 10 ^ 6,
        [0, 5 / 10 ^ 7, 5 / 10 ^ 7, 1 / 10 ^ 6], [(fun _ => 0, D), (fun _ => 0, 0), (fun _ => 1, 0), (fun _ => 1, 0)]⟩ := by
    have hd : hybridDt [1 / 10 ^ 6] (1 / 10 ^ 6)
        (⟨5 / 10 ^ 7, 1 / 10 ^ 6, (fun _ => 1, 0), none, 0, false, 1 / 10 ^ 6, [0, 5 / 10 ^ 7, 5 / 10 ^ 7],
          [(fun _ => 0, D), (fun _ => 0, 0), (fun _ => 1, 0)]⟩ : HState ℝ (Traced ℝ (Unit → ℝ))) =
        (5 / 10 ^ 7, 1 / 10 ^ 6, false, 0) := by norm_num [hybridDt]
    obtain ⟨st, h⟩ := hstep (fun _ => 1, 0) (5 / 10 ^ 7) (5 / 10 ^ 7) none (Or.inl rfl)
    simp only [tracedHybridIter, hd, h, bind, Except.bind, StepOut.unpack4, pure, Except.pure, hcb]
    rw [hoff _ _ (Or.inl (by change 1 / 2 ≤ (1 : ℝ); norm_num)), ht0, if_neg (lt_irrefl 0)]
    have ht : (5 / 10 ^ 7 + 5 / 10 ^ 7 : ℝ) = 1 / 10 ^ 6 := by norm_num
    simp only [hybridFlow, her, zero_le_one, if_true, Bool.false_eq_true, if_false, ht]
    rfl
  have hloop : tracedHybridLoop lateCbCfg [1 / 10 ^ 6] (1 / 10 ^ 6) 0 1 3
      ⟨0, 1 / 10 ^ 6, (fun _ => 0, D), some 0, 0, false, 1 / 10 ^ 6, [0], [(fun _ => 0, D)]⟩ =
      .ok (some ⟨1 / 10 ^ 6, lateCbCfg.adapt (5 / 10 ^ 7) 0, (fun _ => 1, 0), some 0, 0, false, 1 / 10 ^ 6,
        [0, 5 / 10 ^ 7, 5 / 10 ^ 7, 1 / 10 ^ 6], [(fun _ => 0, D), (fun _ => 0, 0), (fun _ => 1, 0), (fun _ => 1, 0)]⟩) := by
    rw [tracedHybridLoop, if_pos ⟨by norm_num, one_pos⟩, h1]
    change tracedHybridLoop _ _ _ _ _ 2 _ = _
    rw [tracedHybridLoop, if_pos ⟨by norm_num, one_pos⟩, h2]
    change tracedHybridLoop _ _ _ _ _ 1 _ = _
    rw [tracedHybridLoop, if_neg (fun h => lt_irrefl _ h.1)]
    rfl
  have hi := small_initStep (x := 0) (by norm_num) 0
  have g0 : (getItem [0, 1 / 10 ^ 6] 0 : Except PyErr ℝ) = .ok 0 := rfl
  have gT : (getItem [0, 1 / 10 ^ 6] (([0, 1 / 10 ^ 6] : List ℝ).length - 1) : Except PyErr ℝ) = .ok (1 / 10 ^ 6) := rfl
  have ho : (dopri5Solver (Except PyErr) ℝ (Traced ℝ (Unit → ℝ)) Unit).order = 5 := rfl
  have hz : inputZero 0 = zeroField := rfl
  simp only [tracedOdeintHybrid, g0, gT, bind, Except.bind, initialJump, Bool.false_eq_true, if_false, pure, Except.pure,
    inputZero_traced, ho, hz]
  erw [hi]
  have hcfg : ({ step := fun x t dt k1 =>
                  (dopri5Solver (Except PyErr) ℝ (Traced ℝ (Unit → ℝ)) Unit).step (pureField fun _ _ => 0) x t dt k1 ()
                 errRatio := fun x xNew xErr => errorRatio Finset.univ (1 / 1000) (1 / 1000) x.1 xNew.1 xErr.1
                 adapt := fun dt er =>
                  adaptStep dt er (dopri5Solver (Except PyErr) ℝ (Traced ℝ (Unit → ℝ)) Unit).safety
                    (dopri5Solver (Except PyErr) ℝ (Traced ℝ (Unit → ℝ)) Unit).minFactor
                    (dopri5Solver (Except PyErr) ℝ (Traced ℝ (Unit → ℝ)) Unit).maxFactor 5
                 callbacks := List.map (fun cb => cb.traced 0) [lateCb], eventTol := 6 / 10 ^ 7 } :
      HybridCfg (Except PyErr) ℝ (Traced ℝ (Unit → ℝ))) = lateCbCfg := rfl
  have hd : List.drop 1 [(0 : ℝ), 1 / 10 ^ 6] = [1 / 10 ^ 6] := rfl
  simp only [hcfg, hd]
  rw [hloop]
  rfl

/-- The initial state of the run. -/
def startAt : ℝ → Unit → ℝ := fun θ _ => θ

/-- **C131**, refuted: the gradient that back-propagation through `odeint_hybrid` computes is not the derivative of what it returns. For
all `θ` near 0 the call returns `θ` before the event and `θ + 1` after it; in the graph, at `θ = 0`, the derivative with respect to `θ` of
both is zero. -/
theorem C131_gradient_refuted :
    (∀ θ : ℝ, |θ| < 1 / 10 ^ 9 →
      odeintHybrid 3 (pureField zeroField) (startAt θ) [0, 1 / 10 ^ 6] 1 wSolver [lateCb.plain θ] (1 / 1000) (1 / 1000) (6 / 10 ^ 7) false
        Finset.univ () =
        .ok (some ([0, 5 / 10 ^ 7, 5 / 10 ^ 7, 1 / 10 ^ 6], [startAt θ, startAt θ, startAt (θ + 1), startAt (θ + 1)]))) ∧
    tracedOdeintHybrid 3 inputZero 0 (startAt 0, fderiv ℝ startAt 0) [0, 1 / 10 ^ 6] 1
      (dopri5Solver (Except PyErr) ℝ (Traced ℝ (Unit → ℝ)) Unit) [lateCb] (1 / 1000) (1 / 1000) (6 / 10 ^ 7) false Finset.univ () =
      .ok (some ([0, 5 / 10 ^ 7, 5 / 10 ^ 7, 1 / 10 ^ 6],
        [(startAt 0, fderiv ℝ startAt 0), leaf (startAt 0), leaf (startAt 1), leaf (startAt 1)])) ∧
    ¬ HasFDerivAt startAt (0 : ℝ →L[ℝ] (Unit → ℝ)) 0 ∧ ¬ HasFDerivAt (fun θ => startAt (θ + 1)) (0 : ℝ →L[ℝ] (Unit → ℝ)) 0 := by
  have key : ∀ c, ¬ HasFDerivAt (fun θ => startAt (θ + c)) (0 : ℝ →L[ℝ] (Unit → ℝ)) 0 := by
    intro c h
    have h1 := (hasFDerivAt_pi'.1 h) ()
    have h2 : HasFDerivAt (fun θ : ℝ => θ + c) (ContinuousLinearMap.id ℝ ℝ) 0 := (hasFDerivAt_id 0).add_const c
    have h3 := congrArg (fun L => L 1) (h1.unique h2)
    simp at h3
  refine ⟨fun θ h => lateCb_run h, lateCb_traced_run _, ?_, key 1⟩
  have := key 0
  simpa only [add_zero] using this

end Torchdyn
