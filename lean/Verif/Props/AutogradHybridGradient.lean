import Verif.Props.AutogradAdaptive
import Verif.Props.AutogradHybrid

/-!
# What back-propagation through `odeint_hybrid` differentiates (C131)

The gradients of `odeint_hybrid` are not those of what the call computes (`C131_gradient_refuted`). This file says of which
computation they are the gradients: of the run in which every state located by the bisection is a constant.
-/

set_option linter.unusedSectionVars false
set_option linter.unusedSimpArgs false
set_option linter.unusedVariables false

namespace Torchdyn

open Spec

variable {Q V A : Type} [NormedAddCommGroup Q] [NormedSpace ℝ Q] [NormedAddCommGroup V] [NormedSpace ℝ V]

/-- `x'` is the new state of one step of the solver with the field `g`. -/
def OneStep (solver : Solver (Except PyErr) ℝ V A) (args : A) (g : ℝ → V → V) (x : V) (t dt : ℝ) (x' : V) : Prop :=
  ∃ k e st, solver.step (pureField g) x t dt none args = .ok (.four k x' e st)

/-- One or more steps of the solver lead from `x` at `t` to `x'` at `t'`. -/
inductive StepsBy (solver : Solver (Except PyErr) ℝ V A) (args : A) (g : ℝ → V → V) (t : ℝ) (x : V) : ℝ → V → Prop
  | one (dt : ℝ) (x' : V) : OneStep solver args g x t dt x' → StepsBy solver args g t x (t + dt) x'
  | more (t' dt : ℝ) (x' x'' : V) : StepsBy solver args g t x t' x' → OneStep solver args g x' t' dt x'' →
      StepsBy solver args g t x (t' + dt) x''

/-- A step of some size from `x` at `t` ends in a state in which some callback reports an event. -/
def EventAhead (solver : Solver (Except PyErr) ℝ V A) (args : A) (g : ℝ → V → V) (cbs : List (InputCallback Q V)) (t : ℝ) (x : V) : Prop :=
  ∃ dt x', OneStep solver args g x t dt x' ∧ ∃ cb ∈ cbs, cb.checkEvent (t + dt) x' = true

/-- The state `z` at the time `t'` of an event that is located from the state `x` at `t`, as a function of the inputs: the state
`x` itself, or a constant, namely what the solver reaches from `x` at the inputs `q`. -/
def CutAt (solver : Solver (Except PyErr) ℝ V A) (args : A) (g : ℝ → V → V) (q : Q) (t : ℝ) (x : Q → V) (t' : ℝ) (z : Q → V) : Prop :=
  (t' = t ∧ z = x) ∨ ∃ c, StepsBy solver args g t (x q) t' c ∧ z = fun _ => c

/-- The states of a run of `odeint_hybrid` from `x0` at `t0` as functions of the inputs. At all inputs the run makes the steps, and
the jumps at the times, that it makes at the inputs `q`; the state at which an event is located does not vary with the inputs. -/
inductive CutRun (solver : Solver (Except PyErr) ℝ V A) (args : A) (f : Q → ℝ → V → V) (cbs : List (InputCallback Q V)) (q : Q)
    (t0 : ℝ) (x0 : Q → V) : ℝ → (Q → V) → Prop
  | start : CutRun solver args f cbs q t0 x0 t0 x0
  | flow (t dt : ℝ) (x x' : Q → V) : CutRun solver args f cbs q t0 x0 t x → (∀ p, OneStep solver args (f p) (x p) t dt (x' p)) →
      (∀ cb ∈ cbs, cb.checkEvent (t + dt) (x' q) = false) → CutRun solver args f cbs q t0 x0 (t + dt) x'
  | jump (t t' : ℝ) (x z : Q → V) (cb : InputCallback Q V) : CutRun solver args f cbs q t0 x0 t x →
      EventAhead solver args (f q) cbs t (x q) → CutAt solver args (f q) q t x t' z → cb ∈ cbs →
      CutRun solver args f cbs q t0 x0 t' (fun p => cb.jumpMap p t' (z p))

/-- A returned row: a state of the run, or the state at which an event was located, before the jump. -/
def CutRow (solver : Solver (Except PyErr) ℝ V A) (args : A) (f : Q → ℝ → V → V) (cbs : List (InputCallback Q V)) (q : Q)
    (t0 : ℝ) (x0 : Q → V) (t : ℝ) (x : Q → V) : Prop :=
  CutRun solver args f cbs q t0 x0 t x ∨
    ∃ s y, CutRun solver args f cbs q t0 x0 s y ∧ EventAhead solver args (f q) cbs s (y q) ∧ CutAt solver args (f q) q s y t x

/-- The steps of the solver in the graph track the steps of the solver. -/
def FsalTracked (tsolver : Solver (Except PyErr) ℝ (Traced Q V) A) (solver : Solver (Except PyErr) ℝ V A) (args : A)
    (f : Q → ℝ → V → V) (q : Q) : Prop :=
  ∀ (x : Q → V) (y : Traced Q V) (t dt : ℝ) (k1 : Option (Traced Q V)), Tracks q x y →
    (∀ k, k1 = some k → Tracks q (fun p => f p t (x p)) k) →
    ∃ (k X : Q → V) (K Y E : Traced Q V) (ST : List (Traced Q V)),
      (∀ p, ∃ e st, solver.step (pureField (f p)) (x p) t dt none args = .ok (.four (k p) (X p) e st)) ∧
      tsolver.step (pureField (tracedField f q)) y t dt k1 args = .ok (.four K Y E ST) ∧ Tracks q k K ∧ Tracks q X Y

set_option maxRecDepth 10000 in
theorem rk7_tracked (tab : Tableau ℝ) {f : Q → ℝ → V → V} {q : Q} (hf : DifferentiableField f q) {x : Q → V}
    {y : Traced Q V} (t dt : ℝ) {k1 : Option (Traced Q V)} (h : Tracks q x y)
    (hk : ∀ k, k1 = some k → Tracks q (fun p => f p t (x p)) k) (args : A) :
    ∃ (k X : Q → V) (K Y E : Traced Q V) (ST : List (Traced Q V)),
      (∀ p, ∃ e st, rk7Step (m := Except PyErr) tab (pureField (f p)) (x p) t dt none args = .ok (.four (k p) (X p) e st)) ∧
      rk7Step (m := Except PyErr) tab (pureField (tracedField f q)) y t dt k1 args = .ok (.four K Y E ST) ∧ Tracks q k K ∧ Tracks q X Y := by
  obtain ⟨K1, h1, e1⟩ : ∃ K1, Tracks q (fun p => f p t (x p)) K1 ∧
      firstStage (m := Except PyErr) (pureField (tracedField f q)) y t k1 = .ok K1 := by
    cases k1 with
    | none => exact ⟨_, h.field hf t, rfl⟩
    | some k => exact ⟨k, hk k rfl, rfl⟩
  have h2 := (h.add (h1.smul (dt * nth2 tab.a 0 0))).field hf (t + nth tab.c 0 * dt)
  have h3 := (h.add (((h1.smul (nth2 tab.a 1 0)).add (h2.smul (nth2 tab.a 1 1))).smul dt)).field hf (t + nth tab.c 1 * dt)
  have h4 := (((h.add (h1.smul (dt * nth2 tab.a 2 0))).add (h2.smul (dt * nth2 tab.a 2 1))).add
    (h3.smul (dt * nth2 tab.a 2 2))).field hf (t + nth tab.c 2 * dt)
  have h5 := ((((h.add (h1.smul (dt * nth2 tab.a 3 0))).add (h2.smul (dt * nth2 tab.a 3 1))).add
    (h3.smul (dt * nth2 tab.a 3 2))).add (h4.smul (dt * nth2 tab.a 3 3))).field hf (t + nth tab.c 3 * dt)
  have h6 := (((((h.add (h1.smul (dt * nth2 tab.a 4 0))).add (h2.smul (dt * nth2 tab.a 4 1))).add
    (h3.smul (dt * nth2 tab.a 4 2))).add (h4.smul (dt * nth2 tab.a 4 3))).add (h5.smul (dt * nth2 tab.a 4 4))).field hf
    (t + nth tab.c 4 * dt)
  have h7 := ((((((h.add (h1.smul (dt * nth2 tab.a 5 0))).add (h2.smul (dt * nth2 tab.a 5 1))).add
    (h3.smul (dt * nth2 tab.a 5 2))).add (h4.smul (dt * nth2 tab.a 5 3))).add (h5.smul (dt * nth2 tab.a 5 4))).add
    (h6.smul (dt * nth2 tab.a 5 5))).field hf (t + nth tab.c 5 * dt)
  have hX := h.add (((((((h1.smul (nth tab.bsol 0)).add (h2.smul (nth tab.bsol 1))).add (h3.smul (nth tab.bsol 2))).add
    (h4.smul (nth tab.bsol 3))).add (h5.smul (nth tab.bsol 4))).add (h6.smul (nth tab.bsol 5))).smul dt)
  iterate 6 apply Exists.intro
  refine ⟨?_, ?_, h7, hX⟩
  · intro p
    simp only [rk7Step, firstStage, pureField, bind, Except.bind, pure, Except.pure]
    exact ⟨_, _, rfl⟩
  · simp only [rk7Step, bind, Except.bind, e1]
    simp only [pureField, pure, Except.pure]
    rfl

theorem dopri5_fsalTracked {f : Q → ℝ → V → V} {q : Q} (hf : DifferentiableField f q) (args : A) :
    FsalTracked (dopri5Solver (Except PyErr) ℝ (Traced Q V) A) (dopri5Solver (Except PyErr) ℝ V A) args f q :=
  fun _ _ t dt _ h hk => rk7_tracked (constructDopri5 ℝ) hf t dt h hk args

theorem tsit5_fsalTracked {f : Q → ℝ → V → V} {q : Q} (hf : DifferentiableField f q) (args : A) :
    FsalTracked (tsit5Solver (Except PyErr) ℝ (Traced Q V) A) (tsit5Solver (Except PyErr) ℝ V A) args f q :=
  fun _ _ t dt _ h hk => rk7_tracked (constructTsit5 ℝ) hf t dt h hk args

section

variable {ι : Type} [Fintype ι] {tsolver : Solver (Except PyErr) ℝ (Traced Q (ι → ℝ)) A} {solver : Solver (Except PyErr) ℝ (ι → ℝ) A} {args : A}
  {f : Q → ℝ → (ι → ℝ) → (ι → ℝ)} {q : Q} {cbs : List (InputCallback Q (ι → ℝ))}

/-- A step of the solver in the graph with a right first stage is, in its values, a step of the solver. -/
theorem SolverProjects.oneStep (hs : SolverProjects tsolver solver) (hF : FsalSolver solver args) (y : Traced Q (ι → ℝ)) (t dt : ℝ)
    (k1 : Option (Traced Q (ι → ℝ))) (hk : ∀ k, k1 = some k → k.1 = f q t y.1) {K Y E : Traced Q (ι → ℝ)} {ST : List (Traced Q (ι → ℝ))}
    (h : tsolver.step (pureField (tracedField f q)) y t dt k1 args = .ok (.four K Y E ST)) :
    OneStep solver args (f q) y.1 t dt Y.1 ∧ K.1 = f q (t + dt) Y.1 := by
  have h1 := hs.step f q y t dt k1 args
  rw [h] at h1
  have h2 : solver.step (pureField (f q)) y.1 t dt (k1.map Prod.fst) args = .ok (.four K.1 Y.1 E.1 (ST.map Prod.fst)) := h1.symm
  refine ⟨⟨K.1, E.1, ST.map Prod.fst, ?_⟩, hF.fsal (f q) y.1 t dt _ _ _ _ _ h2⟩
  rw [← h2]
  cases k1 with
  | none => rfl
  | some k =>
    have := hk k rfl
    simp only [Option.map_some, this]
    exact (hF.first_stage (f q) y.1 t dt).symm

theorem bisect_cut (hs : SolverProjects tsolver solver) (hF : FsalSolver solver args)
    (cfg : HybridCfg (Except PyErr) ℝ (Traced Q (ι → ℝ)))
    (hstep : cfg.step = fun x t dt k1 => tsolver.step (pureField (tracedField f q)) x t dt k1 args) (dt : ℝ) (n : ℕ)
    (b b' : BState ℝ (Traced Q (ι → ℝ))) (hk : ∀ k, b.k1 = some k → k.1 = f q b.tInner b.xInner.1)
    (h : bisect cfg.noGrad dt n b = .ok b') :
    (b'.tInner = b.tInner ∧ b'.xInner = b.xInner) ∨
      b'.xInner.2 = 0 ∧ StepsBy solver args (f q) b.tInner b.xInner.1 b'.tInner b'.xInner.1 := by
  -- what follows a first advance
  have later : ∀ (n : ℕ) (t : ℝ) (x : ι → ℝ) (b b' : BState ℝ (Traced Q (ι → ℝ))),
      (∀ k, b.k1 = some k → k.1 = f q b.tInner b.xInner.1) → b.xInner.2 = 0 →
      StepsBy solver args (f q) t x b.tInner b.xInner.1 → bisect cfg.noGrad dt n b = .ok b' →
      b'.xInner.2 = 0 ∧ StepsBy solver args (f q) t x b'.tInner b'.xInner.1 := by
    intro n t x
    induction n with
    | zero =>
      intro b b' hk h0 hs' h
      cases h
      exact ⟨h0, hs'⟩
    | succ n ih =>
      intro b b' hk h0 hs' h
      rw [bisect] at h
      split at h
      · have hng : cfg.noGrad.step b.xInner b.tInner (b.dtInner / 2) b.k1 =
            (cfg.step b.xInner b.tInner (b.dtInner / 2) b.k1).map StepOut.detach := by
          simp only [HybridCfg.noGrad]
          cases cfg.step b.xInner b.tInner (b.dtInner / 2) b.k1 <;> rfl
        simp only [hng, hstep] at h
        cases hst : tsolver.step (pureField (tracedField f q)) b.xInner b.tInner (b.dtInner / 2) b.k1 args with
        | error e =>
          rw [hst] at h
          cases h
        | ok r =>
          rw [hst] at h
          cases r with
          | three k y e => cases h
          | four k y e st =>
            simp only [Except.map, StepOut.detach, StepOut.unpack4, pure, Except.pure, bind, Except.bind] at h
            obtain ⟨h1, h2⟩ := hs.oneStep hF _ _ _ _ hk hst
            split at h
            · refine ih _ _ ?_ rfl (.more _ _ _ _ hs' h1) h
              rintro k' hk'
              cases hk'
              exact h2
            · exact ih ⟨b.tInner, b.dtInner / 2, b.xInner, b.k1, _⟩ b' hk h0 hs' h
      · cases h
        exact ⟨h0, hs'⟩
  induction n generalizing b with
  | zero =>
    cases h
    exact Or.inl ⟨rfl, rfl⟩
  | succ n ih =>
    rw [bisect] at h
    split at h
    · have hng : cfg.noGrad.step b.xInner b.tInner (b.dtInner / 2) b.k1 =
          (cfg.step b.xInner b.tInner (b.dtInner / 2) b.k1).map StepOut.detach := by
        simp only [HybridCfg.noGrad]
        cases cfg.step b.xInner b.tInner (b.dtInner / 2) b.k1 <;> rfl
      simp only [hng, hstep] at h
      cases hst : tsolver.step (pureField (tracedField f q)) b.xInner b.tInner (b.dtInner / 2) b.k1 args with
      | error e =>
        rw [hst] at h
        cases h
      | ok r =>
        rw [hst] at h
        cases r with
        | three k y e => cases h
        | four k y e st =>
          simp only [Except.map, StepOut.detach, StepOut.unpack4, pure, Except.pure, bind, Except.bind] at h
          obtain ⟨h1, h2⟩ := hs.oneStep hF _ _ _ _ hk hst
          split at h
          · refine Or.inr (later n _ _ _ _ ?_ rfl (.one _ _ h1) h)
            rintro k' hk'
            cases hk'
            exact h2
          · exact ih ⟨b.tInner, b.dtInner / 2, b.xInner, b.k1, _⟩ hk h
    · cases h
      exact Or.inl ⟨rfl, rfl⟩

/-- The current state and all rows recorded so far are tracked by the run that autograd differentiates. -/
structure CutInv (solver : Solver (Except PyErr) ℝ (ι → ℝ) A) (args : A) (f : Q → ℝ → (ι → ℝ) → (ι → ℝ))
    (cbs : List (InputCallback Q (ι → ℝ))) (q : Q) (t0 : ℝ) (x0 : Q → ι → ℝ) (s : HState ℝ (Traced Q (ι → ℝ))) : Prop where
  point : ∃ x, CutRun solver args f cbs q t0 x0 s.t x ∧ Tracks q x s.x ∧ ∀ k, s.k1 = some k → Tracks q (fun p => f p s.t (x p)) k
  len : s.evalTimes.length = s.sol.length
  rows : ∀ r ∈ s.evalTimes.zip s.sol, ∃ x, CutRow solver args f cbs q t0 x0 r.1 x ∧ Tracks q x r.2

theorem cut_iter (hs : SolverProjects tsolver solver) (hF : FsalSolver solver args) (hT : FsalTracked tsolver solver args f q)
    (hj : ∀ cb ∈ cbs, DifferentiableField cb.jumpMap q) (cfg : HybridCfg (Except PyErr) ℝ (Traced Q (ι → ℝ)))
    (hstep : cfg.step = fun x t dt k1 => tsolver.step (pureField (tracedField f q)) x t dt k1 args)
    (hcb : cfg.callbacks = cbs.map fun cb => cb.traced q) (tEval : List ℝ) (T t0 : ℝ) (x0 : Q → ι → ℝ)
    (s s' : HState ℝ (Traced Q (ι → ℝ))) (hinv : CutInv solver args f cbs q t0 x0 s) (h : tracedHybridIter cfg tEval T s = .ok s') :
    CutInv solver args f cbs q t0 x0 s' := by
  obtain ⟨⟨x, hrun, hx, hk1⟩, hlen, hrows⟩ := hinv
  unfold tracedHybridIter at h
  revert h
  generalize hybridDt tEval T s = d
  obtain ⟨dt, dtOld, ckptFlag, ckpt⟩ := d
  intro h
  obtain ⟨k, X, K, Y, E, ST, hp, ht, hk, hX⟩ := hT x s.x s.t dt s.k1 hx hk1
  have hone : ∀ p, OneStep solver args (f p) (x p) s.t dt (X p) := fun p => by
    obtain ⟨e, st, h⟩ := hp p
    exact ⟨_, _, _, h⟩
  have hfs : ∀ p, k p = f p (s.t + dt) (X p) := fun p => by
    obtain ⟨e, st, h⟩ := hp p
    exact hF.fsal (f p) _ _ _ _ _ _ _ _ h
  simp only [hstep, ht, StepOut.unpack4, bind, Except.bind, pure, Except.pure] at h
  have hev : ∀ (t : ℝ) (y : Traced Q (ι → ℝ)), triggeredEvents (eventStates cfg.callbacks t y) = 0 ↔
      ∀ cb ∈ cbs, cb.checkEvent t y.1 = false := by
    intro t y
    rw [triggeredEvents_eq_zero, hcb]
    simp [eventStates, InputCallback.traced]
  split at h
  · rename_i hpos
    have hahead : EventAhead solver args (f q) cbs s.t (x q) := by
      refine ⟨dt, X q, hone q, ?_⟩
      by_contra hno
      push Not at hno
      refine hpos.ne' ((hev _ _).2 fun cb hcb => ?_)
      rw [hX.1]
      simpa using hno cb hcb
    unfold hybridJump at h
    simp only [bind, Except.bind, pure, Except.pure] at h
    cases hb : bisect cfg.noGrad dt 100 ⟨s.t, dt, s.x, s.k1, eventStates cfg.callbacks (s.t + dt) Y⟩ with
    | error e =>
      rw [hb] at h
      cases h
    | ok b =>
      rw [hb] at h
      simp only at h
      have hcut := bisect_cut hs hF cfg hstep dt 100 _ b (fun k hk => by
        have := (hk1 k hk).1
        rw [this, hx.1]) hb
      obtain ⟨z, hz, hzt⟩ : ∃ z, CutAt solver args (f q) q s.t x b.tInner z ∧ Tracks q z b.xInner := by
        rcases hcut with ⟨h1, h2⟩ | ⟨h1, h2⟩
        · exact ⟨x, Or.inl ⟨h1, rfl⟩, h2 ▸ hx⟩
        · refine ⟨fun _ => b.xInner.1, Or.inr ⟨b.xInner.1, ?_, rfl⟩, rfl, ?_⟩
          · rw [← hx.1]
            exact h2
          · rw [h1]
            exact hasFDerivAt_const _ _
      cases hi : firstActive (m := Except PyErr) b.events with
      | error e =>
        rw [hi] at h
        cases h
      | ok i =>
        rw [hi] at h
        have hcb' : cfg.noGrad.callbacks = cbs.map fun cb => cb.traced q := hcb
        simp only [hcb', getItem, List.getElem?_map] at h
        cases hc : cbs[i]? with
        | none =>
          rw [hc] at h
          cases h
        | some cb =>
          rw [hc] at h
          have hmem : cb ∈ cbs := List.mem_of_getElem? hc
          simp only [Option.map_some, pure, Except.pure, Except.ok.injEq] at h
          subst h
          have hjump : CutRun solver args f cbs q t0 x0 b.tInner fun p => cb.jumpMap p b.tInner (z p) :=
            .jump _ _ _ _ cb hrun hahead hz hmem
          have htr : Tracks q (fun p => cb.jumpMap p b.tInner (z p)) ((cb.traced q).jumpMap b.tInner b.xInner) :=
            hzt.field (hj cb hmem) b.tInner
          refine ⟨⟨_, hjump, htr, fun k hk => by cases hk⟩, by simp [hlen], ?_⟩
          intro r hr
          simp only [List.append_assoc, List.cons_append, List.nil_append] at hr
          rw [List.zip_append hlen] at hr
          rcases List.mem_append.1 hr with hr | hr
          · exact hrows r hr
          · simp only [List.zip_cons_cons, List.zip_nil_right, List.mem_cons, List.not_mem_nil, or_false] at hr
            rcases hr with rfl | rfl
            · exact ⟨z, Or.inr ⟨_, x, hrun, hahead, hz⟩, hzt⟩
            · exact ⟨_, Or.inl hjump, htr⟩
  · rename_i hpos
    have hquiet := (hev (s.t + dt) Y).1 (by omega)
    rw [hX.1] at hquiet
    have hnew : CutRun solver args f cbs q t0 x0 (s.t + dt) X := .flow _ _ _ _ hrun hone hquiet
    simp only [Except.ok.injEq, hybridFlow] at h
    split at h
    · subst h
      refine ⟨⟨X, hnew, hX, fun k' hk' => ?_⟩, by simp [hlen], ?_⟩
      · cases hk'
        have : k = fun p => f p (s.t + dt) (X p) := funext hfs
        exact this ▸ hk
      · intro r hr
        simp only at hr
        rw [List.zip_append hlen] at hr
        rcases List.mem_append.1 hr with hr | hr
        · exact hrows r hr
        · simp only [List.zip_cons_cons, List.zip_nil_right, List.mem_cons, List.not_mem_nil, or_false] at hr
          subst hr
          exact ⟨X, Or.inl hnew, hX⟩
    · subst h
      exact ⟨⟨x, hrun, hx, hk1⟩, hlen, hrows⟩

theorem cut_loop (hs : SolverProjects tsolver solver) (hF : FsalSolver solver args) (hT : FsalTracked tsolver solver args f q)
    (hj : ∀ cb ∈ cbs, DifferentiableField cb.jumpMap q) (cfg : HybridCfg (Except PyErr) ℝ (Traced Q (ι → ℝ)))
    (hstep : cfg.step = fun x t dt k1 => tsolver.step (pureField (tracedField f q)) x t dt k1 args)
    (hcb : cfg.callbacks = cbs.map fun cb => cb.traced q) (tEval : List ℝ) (T t0 : ℝ) (x0 : Q → ι → ℝ) (j jS fuel : ℕ)
    (s s' : HState ℝ (Traced Q (ι → ℝ))) (hinv : CutInv solver args f cbs q t0 x0 s)
    (h : tracedHybridLoop cfg tEval T j jS fuel s = .ok (some s')) : CutInv solver args f cbs q t0 x0 s' := by
  induction fuel generalizing s with
  | zero => cases h
  | succ fuel ih =>
    rw [tracedHybridLoop] at h
    split at h
    · cases hi : tracedHybridIter cfg tEval T s with
      | error e =>
        rw [hi] at h
        cases h
      | ok s1 =>
        rw [hi] at h
        exact ih s1 (cut_iter hs hF hT hj cfg hstep hcb tEval T t0 x0 s s1 hinv hi) h
    · cases h
      exact hinv

/-- The first step size (`init_step`, which is part of the graph) is the same for all inputs near `q`, as when utils.py:42 picks the
constant. -/
def FirstStepFixed (solver : Solver (Except PyErr) ℝ (ι → ℝ) A) (f : Q → ℝ → (ι → ℝ) → (ι → ℝ)) (q : Q) (t : ℝ) (x : Q → ι → ℝ)
    (atol rtol : ℝ) : Prop :=
  ∀ᶠ p in nhds q, initStep (m := Except PyErr) (pureField (f p)) (f p t (x p)) (x p) t solver.order atol rtol =
    initStep (pureField (f q)) (f q t (x q)) (x q) t solver.order atol rtol

/-- The state from which the integration starts, after the jump of an event at the initial time (`priority='jump'`). -/
def GraphStart (jumpFirst : Bool) (cbs : List (InputCallback Q (ι → ℝ))) (q : Q) (t0 : ℝ) (x0 x1 : Q → ι → ℝ) : Prop :=
  ((jumpFirst = false ∨ ∀ cb ∈ cbs, cb.checkEvent t0 (x0 q) = false) ∧ x1 = x0) ∨
    jumpFirst = true ∧ ∃ cb ∈ cbs, cb.checkEvent t0 (x0 q) = true ∧ x1 = fun p => cb.jumpMap p t0 (x0 p)

/-- What autograd records for `odeint_hybrid` with the solver. -/
def HybridGradients (tsolver : Solver (Except PyErr) ℝ (Traced Q (ι → ℝ)) A) (solver : Solver (Except PyErr) ℝ (ι → ℝ) A) : Prop :=
  ∀ (f : Q → ℝ → (ι → ℝ) → (ι → ℝ)) (q : Q) (cbs : List (InputCallback Q (ι → ℝ))) (x0 : Q → ι → ℝ) (y0 : Traced Q (ι → ℝ)) (t0 : ℝ)
    (rest : List ℝ) (jSpan fuel : ℕ) (atol rtol eventTol : ℝ) (jumpFirst : Bool) (sel : Finset ι) (args : A) (ts : List ℝ)
    (ys : List (Traced Q (ι → ℝ))),
    DifferentiableField f q → (∀ cb ∈ cbs, DifferentiableField cb.jumpMap q) → Tracks q x0 y0 →
    (∀ x1, GraphStart jumpFirst cbs q t0 x0 x1 → FirstStepFixed solver f q t0 x1 atol rtol) →
    tracedOdeintHybrid fuel f q y0 (t0 :: rest) jSpan tsolver cbs atol rtol eventTol jumpFirst sel args = .ok (some (ts, ys)) →
    ts.length = ys.length ∧ ∃ x1, GraphStart jumpFirst cbs q t0 x0 x1 ∧ ∀ (i : ℕ) (t : ℝ) (y : Traced Q (ι → ℝ)), ts[i]? = some t →
      ys[i]? = some y → ∃ x : Q → ι → ℝ, CutRow solver args f cbs q t0 x1 t x ∧ y.1 = x q ∧ HasFDerivAt x y.2 q

theorem initialJump_tracked {q : Q} {cbs : List (InputCallback Q (ι → ℝ))} (hj : ∀ cb ∈ cbs, DifferentiableField cb.jumpMap q)
    {x0 : Q → ι → ℝ} {y0 : Traced Q (ι → ℝ)} (h0 : Tracks q x0 y0) (t0 : ℝ) (jumpFirst : Bool) {y : Traced Q (ι → ℝ)} {j : ℕ}
    (h : initialJump (m := Except PyErr) (cbs.map fun cb => cb.traced q) jumpFirst t0 y0 = .ok (y, j)) :
    ∃ x1, GraphStart jumpFirst cbs q t0 x0 x1 ∧ Tracks q x1 y := by
  unfold initialJump at h
  cases jumpFirst with
  | false =>
    cases h
    exact ⟨x0, Or.inl ⟨Or.inl rfl, rfl⟩, h0⟩
  | true =>
    simp only [if_true] at h
    split at h
    · cases hi : firstActive (m := Except PyErr) (eventStates (cbs.map fun cb => cb.traced q) t0 y0) with
      | error e =>
        rw [hi] at h
        cases h
      | ok i =>
        rw [hi] at h
        simp only [getItem, bind, Except.bind, List.getElem?_map] at h
        cases hc : cbs[i]? with
        | none =>
          rw [hc] at h
          cases h
        | some cb =>
          rw [hc] at h
          cases h
          have hmem : cb ∈ cbs := List.mem_of_getElem? hc
          refine ⟨_, Or.inr ⟨rfl, cb, hmem, ?_, rfl⟩, h0.field (hj cb hmem) t0⟩
          unfold firstActive at hi
          split at hi
          · rename_i i' hmin
            cases hi
            have hm := List.min?_mem hmin
            rw [List.mem_filter] at hm
            have := hm.2
            simp only [eventStates, List.map_map, List.getD_eq_getElem?_getD, List.getElem?_map, hc, Option.map_some,
              Function.comp_apply, Option.getD_some, InputCallback.traced] at this
            rw [← h0.1]
            exact this
          · cases hi
    · rename_i hpos
      cases h
      refine ⟨x0, Or.inl ⟨Or.inr ?_, rfl⟩, h0⟩
      have h1 : triggeredEvents (eventStates (cbs.map fun cb => cb.traced q) t0 y0) = 0 := by omega
      rw [triggeredEvents_eq_zero] at h1
      rw [← h0.1]
      simpa [eventStates, InputCallback.traced] using h1

theorem hybrid_gradients (hs : SolverProjects (Q := Q) tsolver solver) (hF : ∀ args, FsalSolver solver args)
    (hT : ∀ (f : Q → ℝ → (ι → ℝ) → (ι → ℝ)) (q : Q) (args : A), DifferentiableField f q → FsalTracked tsolver solver args f q) :
    HybridGradients tsolver solver := by
  intro f q cbs x0 y0 t0 rest jSpan fuel atol rtol eventTol jumpFirst sel args ts ys hf hj h0 _ h
  unfold tracedOdeintHybrid at h
  have e0 : getItem (m := Except PyErr) (t0 :: rest) 0 = .ok t0 := rfl
  cases eT : getItem (m := Except PyErr) (t0 :: rest) ((t0 :: rest).length - 1) with
  | error e =>
    rw [e0, eT] at h
    cases h
  | ok T =>
    rw [e0, eT] at h
    simp only [pure, Except.pure, bind, Except.bind] at h
    cases hi : initialJump (m := Except PyErr) (cbs.map fun cb => cb.traced q) jumpFirst t0 y0 with
    | error e =>
      rw [hi] at h
      cases h
    | ok r =>
      obtain ⟨y, j⟩ := r
      rw [hi] at h
      simp only at h
      obtain ⟨x1, hst, hx1⟩ := initialJump_tracked hj h0 t0 jumpFirst hi
      cases hd : initStep (m := Except PyErr) (pureField (f q)) (tracedField f q t0 y).1 y.1 t0 tsolver.order atol rtol with
      | error e =>
        rw [hd] at h
        cases h
      | ok dt =>
        rw [hd] at h
        simp only at h
        split at h
        · cases h
        · rename_i r hr
          cases r with
          | none => cases h
          | some s =>
            cases h
            have hinv := cut_loop hs (hF args) (hT f q args hf) hj _ rfl rfl _ T t0 x1 j jSpan fuel _ s
              ⟨⟨x1, .start, hx1, fun k hk => by
                cases hk
                exact hx1.field hf t0⟩, rfl, fun r hr => by
                simp only [List.zip_cons_cons, List.zip_nil_right, List.mem_cons, List.not_mem_nil, or_false] at hr
                subst hr
                exact ⟨x1, Or.inl .start, hx1⟩⟩ hr
            refine ⟨hinv.len, x1, hst, fun i t y ht hy => ?_⟩
            exact hinv.rows (t, y) (List.mem_of_getElem? (i := i) (by rw [List.getElem?_zip_eq_some]; exact ⟨ht, hy⟩))

/-- **C131 (gradients, partial).** What autograd records for the rows of `odeint_hybrid` with `dopri5` and `tsit5`, whatever the
callbacks, the number of events and of steps: the derivative along `CutRun`, the run that makes at all inputs the steps and the jumps
made at `q`, in which the states located by the bisections are constants. Missing: the dependence of the located states and of the event
times on the inputs, which the code loses (`C131_event_refuted`, `C131_gradient_refuted`), and first step sizes that vary with the
inputs: the model has the times as constants, which the hypothesis `FirstStepFixed` makes true of the code. -/
theorem C131_gradient_partial : HybridGradients (Q := Q) (dopri5Solver (Except PyErr) ℝ (Traced Q (ι → ℝ)) A) (dopri5Solver (Except PyErr) ℝ (ι → ℝ) A) ∧
    HybridGradients (Q := Q) (tsit5Solver (Except PyErr) ℝ (Traced Q (ι → ℝ)) A) (tsit5Solver (Except PyErr) ℝ (ι → ℝ) A) :=
  ⟨hybrid_gradients dopri5_projects dopri5_fsalSolver fun _ _ args hf => dopri5_fsalTracked hf args,
    hybrid_gradients tsit5_projects tsit5_fsalSolver fun _ _ args hf => tsit5_fsalTracked hf args⟩

/-- Without events the run consists of steps only. -/
theorem CutRun.quiet {t0 t : ℝ} {x0 x : Q → ι → ℝ} (hq : ∀ cb ∈ cbs, ∀ t x, cb.checkEvent t x = false)
    (h : CutRun solver args f cbs q t0 x0 t x) : CutRun solver args f [] q t0 x0 t x := by
  induction h with
  | start => exact .start
  | flow t dt x x' _ h1 _ ih => exact .flow _ _ _ _ ih h1 (by simp)
  | jump t t' x z cb _ h1 _ _ _ =>
    obtain ⟨_, _, _, cb, hcb, h2⟩ := h1
    rw [hq cb hcb] at h2
    cases h2

/-- **C131 (gradients without events).** When no callback reports an event, every row has the derivative of the run which makes, at all
inputs, the steps made at `q`: the gradient is cut by events only. (`CutRun` with no callbacks consists of steps of the solver.) -/
theorem C131_quiet_gradient (f : Q → ℝ → (ι → ℝ) → (ι → ℝ)) (q : Q) (hf : DifferentiableField f q) (cbs : List (InputCallback Q (ι → ℝ)))
    (hj : ∀ cb ∈ cbs, DifferentiableField cb.jumpMap q) (hq : ∀ cb ∈ cbs, ∀ t x, cb.checkEvent t x = false) (x0 : Q → ι → ℝ)
    (y0 : Traced Q (ι → ℝ)) (h0 : Tracks q x0 y0) (t0 : ℝ) (rest : List ℝ) (jSpan fuel : ℕ) (atol rtol eventTol : ℝ) (jumpFirst : Bool)
    (sel : Finset ι) (args : A) (ts : List ℝ) (ys : List (Traced Q (ι → ℝ)))
    (hfix : FirstStepFixed (dopri5Solver (Except PyErr) ℝ (ι → ℝ) A) f q t0 x0 atol rtol)
    (h : tracedOdeintHybrid fuel f q y0 (t0 :: rest) jSpan (dopri5Solver (Except PyErr) ℝ (Traced Q (ι → ℝ)) A) cbs atol rtol eventTol
      jumpFirst sel args = .ok (some (ts, ys))) :
    ts.length = ys.length ∧ ∀ (i : ℕ) (t : ℝ) (y : Traced Q (ι → ℝ)), ts[i]? = some t → ys[i]? = some y →
      ∃ x : Q → ι → ℝ, CutRun (dopri5Solver (Except PyErr) ℝ (ι → ℝ) A) args f [] q t0 x0 t x ∧ y.1 = x q ∧ HasFDerivAt x y.2 q := by
  have hst : ∀ x1, GraphStart jumpFirst cbs q t0 x0 x1 → x1 = x0 := by
    rintro x1 (⟨-, h⟩ | ⟨-, cb, hcb, h, -⟩)
    · exact h
    · rw [hq cb hcb] at h
      cases h
  obtain ⟨h1, x1, h2, h3⟩ := C131_gradient_partial.1 f q cbs x0 y0 t0 rest jSpan fuel atol rtol eventTol jumpFirst sel args ts ys hf hj h0
    (fun x1 h => hst x1 h ▸ hfix) h
  obtain rfl := hst x1 h2
  refine ⟨h1, fun i t y ht hy => ?_⟩
  obtain ⟨x, hx | ⟨s, z, -, ⟨_, _, _, cb, hcb, h⟩, -⟩, h4⟩ := h3 i t y ht hy
  · exact ⟨x, hx.quiet hq, h4⟩
  · rw [hq cb hcb] at h
    cases h

end

/-- The hypotheses are met, with an event (the run of `C131_gradient_refuted`) and without. -/
example : DifferentiableField inputZero 0 ∧ DifferentiableField lateCb.jumpMap 0 ∧ Tracks 0 startAt (startAt 0, fderiv ℝ startAt 0) ∧
    FirstStepFixed (dopri5Solver (Except PyErr) ℝ (Unit → ℝ) Unit) inputZero 0 0 startAt (1 / 1000) (1 / 1000) ∧
    (∃ r, tracedOdeintHybrid 3 inputZero 0 (startAt 0, fderiv ℝ startAt 0) [0, 1 / 10 ^ 6] 1
      (dopri5Solver (Except PyErr) ℝ (Traced ℝ (Unit → ℝ)) Unit) [lateCb] (1 / 1000) (1 / 1000) (6 / 10 ^ 7) false Finset.univ () =
      .ok (some r)) ∧
    ∃ ts ys, tracedOdeintHybrid 4 inputZero 0 (startAt 0, fderiv ℝ startAt 0) [0, 1 / 10 ^ 6, 2 / 10 ^ 6] 1
      (dopri5Solver (Except PyErr) ℝ (Traced ℝ (Unit → ℝ)) Unit) [] (1 / 1000) (1 / 1000) (1 / 10 ^ 4) false Finset.univ () =
      .ok (some (ts, ys)) := by
  refine ⟨fun t x => ?_, fun t x => ?_, ⟨rfl, ?_⟩, ?_, ⟨_, C131_gradient_refuted.2.1⟩, ?_⟩
  · exact differentiableAt_const (0 : Unit → ℝ)
  · have h : (fun p : ℝ × (Unit → ℝ) => lateCb.jumpMap p.1 t p.2) = fun p => p.2 + fun _ => 1 := rfl
    rw [h]
    exact differentiableAt_snd.add_const _
  · refine DifferentiableAt.hasFDerivAt ?_
    exact differentiableAt_pi.2 fun _ => differentiableAt_id
  · have hn : ∀ᶠ p : ℝ in nhds 0, |p| < 1 / 10 ^ 9 := by
      have := Metric.ball_mem_nhds (0 : ℝ) (by norm_num : (0 : ℝ) < 1 / 10 ^ 9)
      filter_upwards [this] with p hp
      rwa [Metric.mem_ball, Real.dist_eq, sub_zero] at hp
    filter_upwards [hn] with p hp
    exact (small_initStep hp 0).trans (small_initStep (x := 0) (by norm_num) 0).symm
  · have h := C131_values (A := Unit) 4 inputZero 0 (startAt 0, fderiv ℝ startAt 0) [0, 1 / 10 ^ 6, 2 / 10 ^ 6] 1 [] (1 / 1000) (1 / 1000)
      (1 / 10 ^ 4) false Finset.univ () |>.1
    revert h
    generalize tracedOdeintHybrid (ι := Unit) (Q := ℝ) (A := Unit) _ _ _ _ _ _ _ _ _ _ _ _ _ _ = r
    intro h
    have h' := h.trans C37_strict_refuted
    cases r with
    | error e => cases h'
    | ok r =>
      cases r with
      | none => cases h'
      | some r => exact ⟨_, _, rfl⟩

end Torchdyn
