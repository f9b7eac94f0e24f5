import Verif.Model.TracedAdaptive
import Verif.Props.Autograd
import Verif.Props.QuietStart
import Verif.Proofs.QuietRun
import Verif.Spec.GraphRun

/-!
# Gradients by back-propagation through the adaptive solvers (C132)
-/

set_option linter.unusedSectionVars false
set_option linter.unusedSimpArgs false
set_option linter.unusedVariables false

namespace Torchdyn

open Spec

variable {Q ι A : Type} [NormedAddCommGroup Q] [NormedSpace ℝ Q] [Fintype ι]

/-! ### Values -/

/-- The values of the loop variables. -/
def AState.values {V : Type} [NormedAddCommGroup V] [NormedSpace ℝ V] (s : AState (Traced Q ℝ) (Traced Q V)) : AState ℝ V :=
  { t := s.t.1, dt := s.dt.1, x := s.x.1, k1 := s.k1.1, ckpt := s.ckpt, ckptFlag := s.ckptFlag, dtOld := s.dtOld.1,
    evalTimes := s.evalTimes.map Prod.fst, sol := s.sol.map Prod.fst }

/-- The loop without graph does to the values what the loop in the graph does. -/
structure ValuesOf (cfg : TracedCfg Q (ι → ℝ)) (cfg' : AdaptiveCfg (Except PyErr) ℝ (ι → ℝ)) : Prop where
  step : ∀ x t dt k1, ∃ st, cfg'.step x.1 t.1 dt.1 k1.1 =
    .ok (.four (cfg.step x t dt k1).1.1 (cfg.step x t dt k1).2.1.1 (cfg.step x t dt k1).2.2.1 st)
  errRatio : cfg'.errRatio = cfg.errRatio
  adapt : cfg'.adapt = cfg.adapt
  all : cfg'.returnAllEval = cfg.returnAllEval
  interp : cfg'.interp = none

theorem tracedAccept_values {cfg : TracedCfg Q (ι → ℝ)} {cfg' : AdaptiveCfg (Except PyErr) ℝ (ι → ℝ)} (h : ValuesOf cfg cfg')
    (tEval : List ℝ) (s : AState (Traced Q ℝ) (Traced Q (ι → ℝ))) (dt : Traced Q ℝ) (fNew xNew : Traced Q (ι → ℝ)) (st : List (ι → ℝ)) :
    (tracedAccept cfg.returnAllEval tEval s dt fNew xNew).map AState.values =
      acceptStep cfg' tEval s.values dt.1 fNew.1 xNew.1 st := by
  have h1 : interpPhase cfg' tEval s.values dt.1 fNew.1 xNew.1 st = (s.ckpt, s.values.evalTimes, s.values.sol) := by
    simp only [interpPhase, h.interp]
    rfl
  unfold tracedAccept acceptStep
  rw [h1]
  simp only [bind, Except.bind]
  cases getItem (m := Except PyErr) tEval s.ckpt with
  | error e => rfl
  | ok te =>
    have ht : s.values.t = s.t.1 := rfl
    simp only [Except.map, pure, Except.pure, ht, h.all]
    by_cases hc : s.t.1 + dt.1 = te ∨ cfg.returnAllEval = true
    · simp only [if_pos hc]
      congr 1
      simp [AState.values]
    · simp only [if_neg hc]
      rfl

theorem tracedDt_values (tEval : List ℝ) (T : ℝ) (s : AState (Traced Q ℝ) (Traced Q (ι → ℝ))) :
    checkpointDt false tEval s.values (clampDt T s.values) =
      ((tracedCheckpointDt tEval s (tracedClampDt T s)).1.1, (tracedCheckpointDt tEval s (tracedClampDt T s)).2.1.1,
        (tracedCheckpointDt tEval s (tracedClampDt T s)).2.2) := by
  have hcl : (tracedClampDt T s).1 = clampDt T s.values := by
    unfold tracedClampDt clampDt
    have e1 : s.values.t = s.t.1 := rfl
    have e2 : s.values.dt = s.dt.1 := rfl
    rw [e1, e2]
    split <;> rfl
  rw [← hcl]
  unfold checkpointDt tracedCheckpointDt
  have e1 : s.values.t = s.t.1 := rfl
  have e2 : s.values.ckpt = s.ckpt := rfl
  rw [e1, e2]
  cases tEval[s.ckpt]? with
  | none => rfl
  | some te =>
    simp only
    by_cases hlt : te < s.t.1 + (tracedClampDt T s).1
    · simp only [if_pos hlt]
      rfl
    · simp only [if_neg hlt]
      rfl

theorem tracedIter_values {cfg : TracedCfg Q (ι → ℝ)} {cfg' : AdaptiveCfg (Except PyErr) ℝ (ι → ℝ)} (h : ValuesOf cfg cfg')
    (tEval : List ℝ) (T : ℝ) (s : AState (Traced Q ℝ) (Traced Q (ι → ℝ))) :
    (tracedIter cfg tEval T s).map AState.values = adaptiveIter cfg' tEval T s.values := by
  have hck := tracedDt_values tEval T s
  have hi : cfg'.interp.isSome = false := by rw [h.interp]; rfl
  unfold tracedIter adaptiveIter
  simp only [hi, hck]
  generalize tracedCheckpointDt tEval s (tracedClampDt T s) = d
  obtain ⟨dt, dtOld, flag⟩ := d
  obtain ⟨st, hst⟩ := h.step s.x s.t dt s.k1
  have hst' : cfg'.step s.values.x s.values.t dt.1 s.values.k1 = _ := hst
  have e1 : s.values.x = s.x.1 := rfl
  rw [hst']
  simp only [bind, Except.bind, StepOut.unpack4, pure, Except.pure, h.errRatio, h.adapt, e1]
  by_cases hle : cfg.errRatio s.x.1 (cfg.step s.x s.t dt s.k1).2.1.1 (cfg.step s.x s.t dt s.k1).2.2.1 ≤ 1
  · simp only [if_pos hle]
    rw [← tracedAccept_values h tEval s dt (cfg.step s.x s.t dt s.k1).1 (cfg.step s.x s.t dt s.k1).2.1 st]
    cases tracedAccept cfg.returnAllEval tEval s dt (cfg.step s.x s.t dt s.k1).1 (cfg.step s.x s.t dt s.k1).2.1 with
    | error e => rfl
    | ok s' =>
      simp only [Except.map]
      cases flag <;> rfl
  · simp only [if_neg hle]
    cases flag <;> rfl

theorem tracedLoop_values {cfg : TracedCfg Q (ι → ℝ)} {cfg' : AdaptiveCfg (Except PyErr) ℝ (ι → ℝ)} (h : ValuesOf cfg cfg')
    (tEval : List ℝ) (T : ℝ) (fuel : ℕ) (s : AState (Traced Q ℝ) (Traced Q (ι → ℝ))) :
    (tracedLoop cfg tEval T fuel s).map (Option.map AState.values) = adaptiveLoop cfg' tEval T fuel s.values := by
  induction fuel generalizing s with
  | zero => rfl
  | succ fuel ih =>
    have ht : s.values.t = s.t.1 := rfl
    rw [tracedLoop, adaptiveLoop, ht]
    split
    · simp only [bind, Except.bind]
      rw [← tracedIter_values h]
      cases tracedIter cfg tEval T s with
      | error e => rfl
      | ok s' => exact ih s'
    · rfl

theorem tracedAdaptive_values {cfg : TracedCfg Q (ι → ℝ)} {cfg' : AdaptiveCfg (Except PyErr) ℝ (ι → ℝ)} (h : ValuesOf cfg cfg')
    (fuel : ℕ) (k1 x : Traced Q (ι → ℝ)) (dt : Traced Q ℝ) (ts : List ℝ) :
    (tracedAdaptive cfg fuel k1 x dt ts).map (Option.map fun r => (r.1.map Prod.fst, r.2.map Prod.fst)) =
      adaptiveOdeint cfg' fuel k1.1 x.1 dt.1 ts := by
  unfold tracedAdaptive adaptiveOdeint
  cases getItem (m := Except PyErr) ts 0 with
  | error e => rfl
  | ok t =>
    cases getItem (m := Except PyErr) ts (ts.length - 1) with
    | error e => rfl
    | ok T =>
      simp only [bind, Except.bind]
      have hi : adaptiveInit k1.1 x.1 dt.1 t = (adaptiveInit k1 x dt (leaf t)).values := rfl
      rw [hi, ← tracedLoop_values h]
      cases tracedLoop cfg (ts.drop 1) T fuel (adaptiveInit k1 x dt (leaf t)) with
      | error e => rfl
      | ok r => cases r <;> rfl

theorem timedRk7_values (tab : Tableau ℝ) (f : Q → ℝ → (ι → ℝ) → (ι → ℝ)) (q : Q) (x k1 : Traced Q (ι → ℝ)) (t dt : Traced Q ℝ) (args : A) :
    ∃ st, rk7Step (m := Except PyErr) tab (pureField (f q)) x.1 t.1 dt.1 (some k1.1) args =
      .ok (.four (timedRk7Step tab (timedField f q) x t dt k1).1.1 (timedRk7Step tab (timedField f q) x t dt k1).2.1.1
        (timedRk7Step tab (timedField f q) x t dt k1).2.2.1 st) := by
  refine ⟨match rk7Step (m := Id) tab (pureField (f q)) x.1 t.1 dt.1 (some k1.1) args with | .four _ _ _ st => st | .three _ _ _ => [], ?_⟩
  unfold timedRk7Step
  simp only [rk7Step, firstStage, pureField, bind, Except.bind, pure, Except.pure, timedField, tracedMul, Prod.fst_add, Prod.smul_fst,
    smul_eq_mul, mul_comm dt.1]

/-- The adaptive solvers of the library without arguments. -/
theorem adaptiveSolver_eq (tsit : Bool) : adaptiveSolver tsit ι = libSolver tsit ι Unit := by cases tsit <;> rfl

theorem libSolver_rk7 (tsit : Bool) (f : ℝ → (ι → ℝ) → Except PyErr (ι → ℝ)) (x : ι → ℝ) (t dt : ℝ) (k1 : Option (ι → ℝ)) (args : A) :
    (libSolver tsit ι A).step f x t dt k1 args =
      rk7Step (if tsit then constructTsit5 ℝ else constructDopri5 ℝ) f x t dt k1 args := by cases tsit <;> rfl

theorem tracedCfg_values (tsit : Bool) (f : Q → ℝ → (ι → ℝ) → (ι → ℝ)) (q : Q) (atol rtol : ℝ) (sel : Finset ι) (rae : Bool) (args : A) :
    ValuesOf (tracedCfg tsit f q atol rtol sel rae) (odeintCfg (pureField (f q)) (libSolver tsit ι A) args atol rtol sel none rae) := by
  refine ⟨fun x t dt k1 => ?_, rfl, ?_, rfl, rfl⟩
  · have := timedRk7_values (if tsit then constructTsit5 ℝ else constructDopri5 ℝ) f q x k1 t dt args
    obtain ⟨st, hst⟩ := this
    refine ⟨st, ?_⟩
    have h1 : (tracedCfg tsit f q atol rtol sel rae).step x t dt k1 =
      timedRk7Step (if tsit then constructTsit5 ℝ else constructDopri5 ℝ) (timedField f q) x t dt k1 := by
      unfold tracedCfg
      dsimp only
    have h2 : (odeintCfg (pureField (f q)) (libSolver tsit ι A) args atol rtol sel none rae).step x.1 t.1 dt.1 k1.1 =
      (libSolver tsit ι A).step (pureField (f q)) x.1 t.1 dt.1 (some k1.1) args := rfl
    rw [h1, h2, libSolver_rk7, hst]
  · cases tsit <;> rfl

/-- **C132 (values).** With `dopri5` and `tsit5` the run of `odeint` in the graph has the values, or the error, of the run without. -/
theorem C132_values (tsit : Bool) (fuel : ℕ) (f : Q → ℝ → (ι → ℝ) → (ι → ℝ)) (q : Q) (x : Traced Q (ι → ℝ)) (tSpan : List ℝ)
    (atol rtol : ℝ) (rae : Bool) (saveAt : List ℝ) (args : A) (sel : Finset ι) :
    (tracedOdeint tsit fuel f q x tSpan atol rtol rae sel).map (Option.map fun r => (r.1.map Prod.fst, r.2.map Prod.fst)) =
      odeint fuel (pureField (f q)) x.1 tSpan (libSolver tsit ι A) atol rtol false rae saveAt args sel := by
  have ha : (libSolver tsit ι A).adaptive = true := by cases tsit <;> rfl
  have hi : (if (libSolver tsit ι A).isTsit5 = true then false else false) = false := by simp
  have ho : (adaptiveSolver tsit ι).order = (libSolver tsit ι A).order := by cases tsit <;> rfl
  have tail : ∀ (f' : Q → ℝ → (ι → ℝ) → (ι → ℝ)) (ts : List ℝ),
      Except.map (Option.map fun r : List (Traced Q ℝ) × List (Traced Q (ι → ℝ)) => (r.1.map Prod.fst, r.2.map Prod.fst)) (do
        let t ← getItem ts 0
        tracedAdaptive (tracedCfg tsit f' q atol rtol sel rae) fuel (timedField f' q (leaf t) x) x
          (tracedInitialStep tsit f f' q x t atol rtol) ts) =
      (do
        let t ← getItem ts 0
        let k1 ← pureField (m := Except PyErr) (f' q) t x.1
        let dt ← initStep (pureField (f q)) k1 x.1 t (libSolver tsit ι A).order atol rtol
        adaptiveOdeint (odeintCfg (pureField (f' q)) (libSolver tsit ι A) args atol rtol sel none rae) fuel k1 x.1 dt ts) := by
    intro f' ts
    cases getItem (m := Except PyErr) ts 0 with
    | error e => rfl
    | ok t =>
      have h1 : initStep (m := Except PyErr) (pureField (f q)) (f' q t x.1) x.1 t (libSolver tsit ι A).order atol rtol =
          .ok (initialStep tsit f f' t atol rtol (q, x.1)) := by
        rw [← ho]
        rfl
      have h2 : pureField (m := Except PyErr) (f' q) t x.1 = .ok (f' q t x.1) := rfl
      simp only [bind, Except.bind, h2, h1]
      exact tracedAdaptive_values (tracedCfg_values tsit f' q atol rtol sel rae args) fuel (timedField f' q (leaf t) x) x
        (tracedInitialStep tsit f f' q x t atol rtol) ts
  unfold tracedOdeint odeint odeintDirection
  simp only [ha, hi, if_true, Bool.false_eq_true, if_false]
  cases getItem (m := Except PyErr) tSpan 1 with
  | error e => rfl
  | ok t1 =>
    cases getItem (m := Except PyErr) tSpan 0 with
    | error e => rfl
    | ok t0 =>
      by_cases hlt : t1 < t0
      · simp only [if_pos hlt, bind, Except.bind, pure, Except.pure]
        exact tail (fun p t y => -f p (-t) y) (tSpan.map fun t => -t)
      · simp only [if_neg hlt, bind, Except.bind, pure, Except.pure]
        exact tail f tSpan

/-! ### Gradients -/

/-- The field is differentiable in inputs, time and state, at the inputs `q`. -/
def SmoothField {V : Type} [NormedAddCommGroup V] [NormedSpace ℝ V] (f : Q → ℝ → V → V) (q : Q) : Prop :=
  ∀ t x, DifferentiableAt ℝ (fun p : Q × ℝ × V => f p.1 p.2.1 p.2.2) (q, t, x)

section

variable {V : Type} [NormedAddCommGroup V] [NormedSpace ℝ V]

theorem Tracks.const (q : Q) (c : V) : Tracks q (fun _ => c) (leaf c) := ⟨rfl, hasFDerivAt_const c q⟩

theorem Tracks.sub {q : Q} {x x' : Q → V} {y y' : Traced Q V} (h : Tracks q x y) (h' : Tracks q x' y') :
    Tracks q (fun p => x p - x' p) (y - y') := by
  refine ⟨?_, h.2.sub h'.2⟩
  rw [Prod.fst_sub, h.1, h'.1]

theorem Tracks.mul {q : Q} {c : Q → ℝ} {x : Q → V} {d : Traced Q ℝ} {y : Traced Q V} (h : Tracks q c d) (h' : Tracks q x y) :
    Tracks q (fun p => c p • x p) (tracedMul d y) := by
  refine ⟨?_, ?_⟩
  · rw [tracedMul, h.1, h'.1]
  · have := h.2.smul h'.2
    rw [tracedMul, h.1, h'.1]
    exact this

theorem Tracks.scaled {q : Q} {c : Q → ℝ} {x : Q → V} {d : Traced Q ℝ} {y : Traced Q V} (h : Tracks q c d) (h' : Tracks q x y) (a : ℝ) :
    Tracks q (fun p => (c p * a) • x p) (tracedMul (a • d) y) := by
  have := (h.smul a).mul h'
  simpa only [smul_eq_mul, mul_comm a] using this

theorem Tracks.later {q : Q} {τ δ : Q → ℝ} {t d : Traced Q ℝ} (h : Tracks q τ t) (h' : Tracks q δ d) (c : ℝ) :
    Tracks q (fun p => τ p + c * δ p) (t + c • d) := by
  simpa only [smul_eq_mul] using h.add (h'.smul c)

theorem Tracks.timed {f : Q → ℝ → V → V} {q : Q} (hf : SmoothField f q) {x : Q → V} {y : Traced Q V} (h : Tracks q x y)
    {τ : Q → ℝ} {t : Traced Q ℝ} (ht : Tracks q τ t) : Tracks q (fun p => f p (τ p) (x p)) (timedField f q t y) := by
  refine ⟨by rw [timedField, h.1, ht.1], ?_⟩
  have h1 : HasFDerivAt (fun p => (p, τ p, x p)) ((ContinuousLinearMap.id ℝ Q).prod (t.2.prod y.2)) q :=
    (hasFDerivAt_id q).prodMk (ht.2.prodMk h.2)
  have h2 := (hf t.1 y.1).hasFDerivAt
  rw [h.1, ht.1] at h2
  have := HasFDerivAt.comp q (f := fun p => (p, τ p, x p)) h2 h1
  rw [timedField, h.1, ht.1]
  exact this

theorem SmoothField.reverse {f : Q → ℝ → V → V} {q : Q} (hf : SmoothField f q) : SmoothField (fun p t x => -f p (-t) x) q := by
  intro t x
  have h1 : DifferentiableAt ℝ (fun p : Q × ℝ × V => (p.1, -p.2.1, p.2.2)) (q, t, x) := by fun_prop
  have h2 := DifferentiableAt.comp (q, t, x) (f := fun p : Q × ℝ × V => (p.1, -p.2.1, p.2.2)) (hf (-t) x) h1
  exact h2.neg

end

set_option maxRecDepth 10000 in
theorem timedRk7_tracked (tab : Tableau ℝ) {f : Q → ℝ → (ι → ℝ) → (ι → ℝ)} {q : Q} (hf : SmoothField f q) {x : Q → ι → ℝ}
    {y k1 : Traced Q (ι → ℝ)} {τ δ : Q → ℝ} {t dt : Traced Q ℝ} (ht : Tracks q τ t) (hd : Tracks q δ dt) (h : Tracks q x y)
    (h1 : Tracks q (fun p => f p (τ p) (x p)) k1) (args : A) :
    ∃ (k X e : Q → ι → ℝ) (st : Q → List (ι → ℝ)),
      (∀ p, rk7Step (m := Except PyErr) tab (pureField (f p)) (x p) (τ p) (δ p) none args = .ok (.four (k p) (X p) (e p) (st p))) ∧
      Tracks q k (timedRk7Step tab (timedField f q) y t dt k1).1 ∧ Tracks q X (timedRk7Step tab (timedField f q) y t dt k1).2.1 ∧
      Tracks q e (timedRk7Step tab (timedField f q) y t dt k1).2.2 := by
  have h2 := (h.add (hd.scaled h1 (nth2 tab.a 0 0))).timed hf (ht.later hd (nth tab.c 0))
  have h3 := (h.add (hd.mul ((h1.smul (nth2 tab.a 1 0)).add (h2.smul (nth2 tab.a 1 1))))).timed hf (ht.later hd (nth tab.c 1))
  have h4 := (((h.add (hd.scaled h1 (nth2 tab.a 2 0))).add (hd.scaled h2 (nth2 tab.a 2 1))).add
    (hd.scaled h3 (nth2 tab.a 2 2))).timed hf (ht.later hd (nth tab.c 2))
  have h5 := ((((h.add (hd.scaled h1 (nth2 tab.a 3 0))).add (hd.scaled h2 (nth2 tab.a 3 1))).add
    (hd.scaled h3 (nth2 tab.a 3 2))).add (hd.scaled h4 (nth2 tab.a 3 3))).timed hf (ht.later hd (nth tab.c 3))
  have h6 := (((((h.add (hd.scaled h1 (nth2 tab.a 4 0))).add (hd.scaled h2 (nth2 tab.a 4 1))).add
    (hd.scaled h3 (nth2 tab.a 4 2))).add (hd.scaled h4 (nth2 tab.a 4 3))).add (hd.scaled h5 (nth2 tab.a 4 4))).timed hf
    (ht.later hd (nth tab.c 4))
  have h7 := ((((((h.add (hd.scaled h1 (nth2 tab.a 5 0))).add (hd.scaled h2 (nth2 tab.a 5 1))).add
    (hd.scaled h3 (nth2 tab.a 5 2))).add (hd.scaled h4 (nth2 tab.a 5 3))).add (hd.scaled h5 (nth2 tab.a 5 4))).add
    (hd.scaled h6 (nth2 tab.a 5 5))).timed hf (ht.later hd (nth tab.c 5))
  have hX := h.add (hd.mul ((((((h1.smul (nth tab.bsol 0)).add (h2.smul (nth tab.bsol 1))).add (h3.smul (nth tab.bsol 2))).add
    (h4.smul (nth tab.bsol 3))).add (h5.smul (nth tab.bsol 4))).add (h6.smul (nth tab.bsol 5))))
  have hE := hd.mul (((((((h1.smul (nth tab.berr 0)).add (h2.smul (nth tab.berr 1))).add (h3.smul (nth tab.berr 2))).add
    (h4.smul (nth tab.berr 3))).add (h5.smul (nth tab.berr 4))).add (h6.smul (nth tab.berr 5))).add (h7.smul (nth tab.berr 6)))
  refine ⟨_, _, _, fun p => match rk7Step (m := Id) tab (pureField (f p)) (x p) (τ p) (δ p) none args with
    | .four _ _ _ st => st | .three _ _ _ => [], ?_, h7, hX, hE⟩
  intro p
  simp only [rk7Step, firstStage, pureField, bind, Except.bind, pure, Except.pure]

theorem libSolver_fsal (tsit : Bool) (args : A) : FsalSolver (libSolver tsit ι A) args := by
  cases tsit
  · exact dopri5_fsalSolver args
  · exact tsit5_fsalSolver args

/-- The rows recorded so far, and the current point, are tracked by what autograd differentiates. -/
structure GraphInv (P : (Q → ℝ) → (Q → ι → ℝ) → Prop) (f : Q → ℝ → (ι → ℝ) → (ι → ℝ)) (q : Q) (t0 : ℝ) (δ0 : Q → ℝ)
    (s : AState (Traced Q ℝ) (Traced Q (ι → ℝ))) : Prop where
  point : ∃ τ x δ, P τ x ∧ Tracks q τ s.t ∧ Tracks q x s.x ∧ Tracks q (fun p => f p (τ p) (x p)) s.k1 ∧ Tracks q δ s.dt ∧
    ((∃ c, ∀ p, δ p = c) ∨ ∀ p, τ p = t0 ∧ δ p = δ0 p)
  len : s.evalTimes.length = s.sol.length
  rows : ∀ r ∈ s.evalTimes.zip s.sol, ∃ τ x, P τ x ∧ Tracks q τ r.1 ∧ Tracks q x r.2

theorem graph_iter (tsit : Bool) {f : Q → ℝ → (ι → ℝ) → (ι → ℝ)} {q : Q} (hf : SmoothField f q) {x0 : Q → ι → ℝ} {δ0 : Q → ℝ}
    (atol rtol : ℝ) (rae : Bool) (args : A) (sel : Finset ι) {tEval : List ℝ} {t0 T : ℝ} (hT : T ∈ tEval)
    {s s' : AState (Traced Q ℝ) (Traced Q (ι → ℝ))}
    (hI : GraphInv (GraphRun (libSolver tsit ι A) args f q sel atol rtol δ0 tEval t0 x0) f q t0 δ0 s)
    (hpos : 0 < (tracedCheckpointDt tEval s (tracedClampDt T s)).1.1)
    (h : tracedIter (tracedCfg tsit f q atol rtol sel rae) tEval T s = .ok s') :
    GraphInv (GraphRun (libSolver tsit ι A) args f q sel atol rtol δ0 tEval t0 x0) f q t0 δ0 s' := by
  obtain ⟨τ, x, δ, hrun, ht, hx, hk, hd, hkind⟩ := hI.point
  -- the step that is made
  have hdt : ∃ δ', Tracks q δ' (tracedCheckpointDt tEval s (tracedClampDt T s)).1 ∧
      ((∃ c, ∀ p, τ p + δ' p = τ p + c) ∨ (∃ te ∈ tEval, ∀ p, τ p + δ' p = te) ∨ ∀ p, τ p = t0 ∧ τ p + δ' p = t0 + δ0 p) := by
    have hend : ∀ te ∈ tEval, ∃ δ', Tracks q δ' (leaf te - s.t) ∧
      ((∃ c, ∀ p, τ p + δ' p = τ p + c) ∨ (∃ te ∈ tEval, ∀ p, τ p + δ' p = te) ∨ ∀ p, τ p = t0 ∧ τ p + δ' p = t0 + δ0 p) :=
      fun te hte => ⟨fun p => te - τ p, (Tracks.const q te).sub ht, Or.inr (Or.inl ⟨te, hte, fun p => by ring⟩)⟩
    have hclamp : ∃ δ', Tracks q δ' (tracedClampDt T s) ∧
        ((∃ c, ∀ p, τ p + δ' p = τ p + c) ∨ (∃ te ∈ tEval, ∀ p, τ p + δ' p = te) ∨ ∀ p, τ p = t0 ∧ τ p + δ' p = t0 + δ0 p) := by
      unfold tracedClampDt
      split
      · exact hend T hT
      · refine ⟨δ, hd, ?_⟩
        rcases hkind with ⟨c, hc⟩ | hc
        · exact Or.inl ⟨c, fun p => by rw [hc]⟩
        · exact Or.inr (Or.inr fun p => ⟨(hc p).1, by rw [(hc p).1, (hc p).2]⟩)
    unfold tracedCheckpointDt
    cases hte : tEval[s.ckpt]? with
    | none => exact hclamp
    | some te =>
      simp only
      split
      · exact hend te (List.mem_of_getElem? hte)
      · exact hclamp
  unfold tracedIter at h
  generalize tracedCheckpointDt tEval s (tracedClampDt T s) = d at h hdt hpos
  obtain ⟨dt, dtOld, flag⟩ := d
  obtain ⟨δ', hδ, hkind'⟩ := hdt
  obtain ⟨k, X, e, st, g1, g2, g3, g4⟩ := timedRk7_tracked (if tsit then constructTsit5 ℝ else constructDopri5 ℝ) hf ht hδ hx hk args
  have g1' : ∀ p, (libSolver tsit ι A).step (fun t x => .ok (f p t x)) (x p) (τ p) (δ' p) none args =
      .ok (.four (k p) (X p) (e p) (st p)) := by
    intro p
    have : (fun t x => .ok (f p t x)) = pureField (m := Except PyErr) (f p) := rfl
    rw [this, libSolver_rk7, g1]
  have hstep : (tracedCfg tsit f q atol rtol sel rae).step s.x s.t dt s.k1 =
    timedRk7Step (if tsit then constructTsit5 ℝ else constructDopri5 ℝ) (timedField f q) s.x s.t dt s.k1 := by
    unfold tracedCfg
    dsimp only
  simp only [hstep] at h
  generalize timedRk7Step (if tsit then constructTsit5 ℝ else constructDopri5 ℝ) (timedField f q) s.x s.t dt s.k1 = o at h g2 g3 g4
  obtain ⟨fNew, xNew, xErr⟩ := o
  simp only [bind, Except.bind] at h g2 g3 g4 hδ hpos
  by_cases hle : (tracedCfg tsit f q atol rtol sel rae).errRatio s.x.1 xNew.1 xErr.1 ≤ 1
  · simp only [if_pos hle, tracedAccept, bind, Except.bind] at h
    have hnew : GraphRun (libSolver tsit ι A) args f q sel atol rtol δ0 tEval t0 x0 (fun p => τ p + δ' p) X := by
      refine .step hrun hkind' ⟨?_, k q, e q, st q, ?_, ?_⟩ ?_
      · have := hδ.1
        simp only
        linarith
      · simp only [add_sub_cancel_left]
        exact g1' q
      · have h8 : (tracedCfg tsit f q atol rtol sel rae).errRatio s.x.1 xNew.1 xErr.1 = errorNorm sel atol rtol s.x.1 xNew.1 xErr.1 :=
          errorRatio_eq sel atol rtol s.x.1 xNew.1 xErr.1
        rw [h8, g3.1, g4.1, hx.1] at hle
        exact hle
      · intro p
        refine ⟨k p, e p, st p, ?_⟩
        rw [add_sub_cancel_left]
        exact g1' p
    have hk' : Tracks q (fun p => f p (τ p + δ' p) (X p)) fNew := by
      have : (fun p => f p (τ p + δ' p) (X p)) = k := by
        funext p
        exact ((libSolver_fsal tsit args).fsal (f p) _ _ _ _ _ _ _ _ (g1' p)).symm
      rw [this]
      exact g2
    cases hg : getItem (m := Except PyErr) tEval s.ckpt with
    | error err => simp [hg] at h
    | ok te =>
      simp only [hg, pure, Except.pure, Except.ok.injEq] at h
      subst h
      refine ⟨⟨_, X, _, hnew, ht.add hδ, g3, hk', Tracks.const q _, Or.inl ⟨_, fun _ => rfl⟩⟩, ?_, ?_⟩
      · simp only
        split_ifs <;> simp [hI.len]
      · simp only
        split_ifs
        · intro r hr
          rw [List.zip_append hI.len, List.mem_append] at hr
          rcases hr with hr | hr
          · exact hI.rows r hr
          · simp only [List.zip_cons_cons, List.zip_nil_left, List.mem_singleton] at hr
            subst hr
            exact ⟨_, X, hnew, ht.add hδ, g3⟩
        · exact hI.rows
  · simp only [if_neg hle, pure, Except.pure, Except.ok.injEq] at h
    subst h
    exact ⟨⟨τ, x, _, hrun, ht, hx, hk, Tracks.const q _, Or.inl ⟨_, fun _ => rfl⟩⟩, hI.len, hI.rows⟩

theorem graph_loop (tsit : Bool) {f : Q → ℝ → (ι → ℝ) → (ι → ℝ)} {q : Q} (hf : SmoothField f q) {x0 : Q → ι → ℝ} {δ0 : Q → ℝ}
    (atol rtol : ℝ) (rae : Bool) (args : A) (sel : Finset ι) {tEval : List ℝ} {t0 T : ℝ} (hsort : tEval.Pairwise (· < ·))
    (hT : tEval.getLast? = some T) (fuel : ℕ) (s : AState (Traced Q ℝ) (Traced Q (ι → ℝ))) (hinv : AInv tEval t0 T s.values)
    (hI : GraphInv (GraphRun (libSolver tsit ι A) args f q sel atol rtol δ0 tEval t0 x0) f q t0 δ0 s)
    (s' : AState (Traced Q ℝ) (Traced Q (ι → ℝ)))
    (h : tracedLoop (tracedCfg tsit f q atol rtol sel rae) tEval T fuel s = .ok (some s')) :
    GraphInv (GraphRun (libSolver tsit ι A) args f q sel atol rtol δ0 tEval t0 x0) f q t0 δ0 s' := by
  have hfs := libSolver_fsal (ι := ι) tsit args
  induction fuel generalizing s with
  | zero => simp [tracedLoop, pure, Except.pure] at h
  | succ fuel ih =>
    rw [tracedLoop] at h
    by_cases hlt : s.t.1 < T
    · rw [if_pos hlt] at h
      cases hit : tracedIter (tracedCfg tsit f q atol rtol sel rae) tEval T s with
      | error e => simp [hit, bind, Except.bind] at h
      | ok s1 =>
        simp only [hit, bind, Except.bind] at h
        have hpos := (attempt_spec false hsort hT hinv hlt).1
        rw [tracedDt_values] at hpos
        refine ih s1 ?_ (graph_iter tsit hf atol rtol rae args sel (List.mem_of_getLast? hT) hI hpos hit) h
        have hv := tracedIter_values (tracedCfg_values tsit f q atol rtol sel rae args) tEval T s
        rw [hit] at hv
        have hall : ∀ y t dt k1, ∃ o : (ι → ℝ) × (ι → ℝ) × (ι → ℝ) × List (ι → ℝ),
            (odeintCfg (pureField (f q)) (libSolver tsit ι A) args atol rtol sel none rae).step y t dt k1 =
              .ok (.four o.1 o.2.1 o.2.2.1 o.2.2.2) := by
          intro y t dt k1
          obtain ⟨k, x', e, st, h⟩ := hfs.step_ok (f q) y t dt (some k1)
          exact ⟨(k, x', e, st), h⟩
        choose out hout using hall
        obtain ⟨_, s2, h1, -, h2, -⟩ := adaptiveIter_spec (out := out) hout
          (fun d er hd => adaptStep_pos hd hfs.min_pos hfs.max_pos) hsort hT hinv hlt
        rw [h1] at hv
        cases hv
        exact h2
    · rw [if_neg hlt] at h
      cases h
      exact hI

/-- Lines 86-408 on increasing times, for the field `f'` that is integrated; the first step comes from the field `f`. -/
theorem graph_core (tsit : Bool) {f f' : Q → ℝ → (ι → ℝ) → (ι → ℝ)} {q : Q} (hf : SmoothField f' q) {x0 : Q → ι → ℝ}
    {y0 : Traced Q (ι → ℝ)} (h0 : Tracks q x0 y0) {t0 t1 : ℝ} {rest : List ℝ} (hinc : Increasing (t0 :: t1 :: rest)) (atol rtol : ℝ)
    (hinit : DifferentiableAt ℝ (initialStep tsit f f' t0 atol rtol) (q, x0 q)) (rae : Bool) (args : A) (sel : Finset ι) (fuel : ℕ)
    (ts : List (Traced Q ℝ)) (ys : List (Traced Q (ι → ℝ)))
    (h : tracedAdaptive (tracedCfg tsit f' q atol rtol sel rae) fuel (timedField f' q (leaf t0) y0) y0
      (tracedInitialStep tsit f f' q y0 t0 atol rtol) (t0 :: t1 :: rest) = .ok (some (ts, ys))) :
    ts.length = ys.length ∧ ∀ (i : ℕ) t y, ts[i]? = some t → ys[i]? = some y →
      ∃ (τ : Q → ℝ) (x : Q → ι → ℝ), GraphRun (libSolver tsit ι A) args f' q sel atol rtol
        (fun p => initialStep tsit f f' t0 atol rtol (p, x0 p)) (t1 :: rest) t0 x0 τ x ∧
        t.1 = τ q ∧ HasFDerivAt τ t.2 q ∧ y.1 = x q ∧ HasFDerivAt x y.2 q := by
  obtain ⟨T, hT⟩ : ∃ T, (t1 :: rest).getLast? = some T := ⟨_, List.getLast?_eq_some_getLast (by simp)⟩
  have hgT : (t0 :: t1 :: rest)[(t0 :: t1 :: rest).length - 1]? = some T := by
    rw [← List.getLast?_eq_getElem?, getLast?_cons_cons, hT]
  have gT : (getItem (t0 :: t1 :: rest) ((t0 :: t1 :: rest).length - 1) : Except PyErr ℝ) = .ok T := by
    simp only [getItem, hgT]
    rfl
  have g0 : (getItem (t0 :: t1 :: rest) 0 : Except PyErr ℝ) = .ok t0 := rfl
  have hδ : Tracks q (fun p => initialStep tsit f f' t0 atol rtol (p, x0 p)) (tracedInitialStep tsit f f' q y0 t0 atol rtol) := by
    refine ⟨by rw [tracedInitialStep, h0.1], ?_⟩
    have h1 : HasFDerivAt (fun p => (p, x0 p)) ((ContinuousLinearMap.id ℝ Q).prod y0.2) q := (hasFDerivAt_id q).prodMk h0.2
    have := HasFDerivAt.comp q (f := fun p => (p, x0 p)) hinit.hasFDerivAt h1
    rw [tracedInitialStep, h0.1]
    exact this
  have hpos : 0 < (tracedInitialStep tsit f f' q y0 t0 atol rtol).1 :=
    lt_min (mul_pos (by norm_num) (initTrial_pos _ _)) (initSecond_pos _ _ _ _)
  unfold tracedAdaptive at h
  simp only [g0, gT, bind, Except.bind, List.drop_succ_cons, List.drop_zero] at h
  cases hl : tracedLoop (tracedCfg tsit f' q atol rtol sel rae) (t1 :: rest) T fuel
      (adaptiveInit (timedField f' q (leaf t0) y0) y0 (tracedInitialStep tsit f f' q y0 t0 atol rtol) (leaf t0)) with
  | error e => simp [hl] at h
  | ok r =>
    cases r with
    | none => simp [hl, pure, Except.pure] at h
    | some s =>
      simp only [hl, pure, Except.pure, Option.map_some, Except.ok.injEq, Option.some.injEq, Prod.mk.injEq] at h
      obtain ⟨rfl, rfl⟩ := h
      have hI := graph_loop tsit hf (x0 := x0) (δ0 := fun p => initialStep tsit f f' t0 atol rtol (p, x0 p)) (t0 := t0) atol rtol rae args
        sel (List.pairwise_cons.1 hinc).2 hT fuel
        (adaptiveInit (timedField f' q (leaf t0) y0) y0 (tracedInitialStep tsit f f' q y0 t0 atol rtol) (leaf t0))
        (adaptiveInit_inv (timedField f' q (leaf t0) y0).1 y0.1 hpos hinc hT)
        ⟨⟨fun _ => t0, x0, _, .start, Tracks.const q t0, h0, h0.timed hf (Tracks.const q t0), hδ, Or.inr fun p => ⟨rfl, rfl⟩⟩, rfl, by
          intro r hr
          simp only [adaptiveInit, List.zip_cons_cons, List.zip_nil_left, List.mem_singleton] at hr
          subst hr
          exact ⟨fun _ => t0, x0, .start, Tracks.const q t0, h0⟩⟩ s hl
      refine ⟨hI.len, fun i t y ht hy => ?_⟩
      have hm : (t, y) ∈ s.evalTimes.zip s.sol := by
        apply List.mem_of_getElem? (i := i)
        rw [List.getElem?_zip_eq_some]
        exact ⟨ht, hy⟩
      obtain ⟨τ, x, h1, h2, h3⟩ := hI.rows _ hm
      exact ⟨τ, x, h1, h2.1, h2.2, h3.1, h3.2⟩

theorem tracedOdeint_forward (tsit : Bool) (fuel : ℕ) (f : Q → ℝ → (ι → ℝ) → (ι → ℝ)) (q : Q) (y : Traced Q (ι → ℝ)) {t0 t1 : ℝ}
    (rest : List ℝ) (atol rtol : ℝ) (rae : Bool) (sel : Finset ι) (hdir : t0 ≤ t1) :
    tracedOdeint tsit fuel f q y (t0 :: t1 :: rest) atol rtol rae sel =
      tracedAdaptive (tracedCfg tsit f q atol rtol sel rae) fuel (timedField f q (leaf t0) y) y
        (tracedInitialStep tsit f f q y t0 atol rtol) (t0 :: t1 :: rest) := by
  simp only [tracedOdeint, getItem, List.getElem?_cons_succ, List.getElem?_cons_zero, pure_bind, if_neg (not_lt.2 hdir)]

theorem tracedOdeint_backward (tsit : Bool) (fuel : ℕ) (f : Q → ℝ → (ι → ℝ) → (ι → ℝ)) (q : Q) (y : Traced Q (ι → ℝ)) {t0 t1 : ℝ}
    (rest : List ℝ) (atol rtol : ℝ) (rae : Bool) (sel : Finset ι) (hdir : t1 < t0) :
    tracedOdeint tsit fuel f q y (t0 :: t1 :: rest) atol rtol rae sel =
      tracedAdaptive (tracedCfg tsit (fun p t x => -f p (-t) x) q atol rtol sel rae) fuel
        (timedField (fun p t x => -f p (-t) x) q (leaf (-t0)) y) y
        (tracedInitialStep tsit f (fun p t x => -f p (-t) x) q y (-t0) atol rtol) (-t0 :: -t1 :: rest.map fun t => -t) := by
  simp only [tracedOdeint, getItem, List.getElem?_cons_succ, List.getElem?_cons_zero, pure_bind, if_pos hdir, List.map_cons]

/-- **C132 (gradients).** What autograd records for a row of the result of `odeint` with `dopri5` or `tsit5` is its derivative along
`GraphRun`: the integration that makes, at all inputs, the steps that were accepted at `q`. The times move with the inputs through the
first step size only, until a step ends at a requested time; the step size controller is not differentiated. -/
theorem C132_gradient (tsit : Bool) {f : Q → ℝ → (ι → ℝ) → (ι → ℝ)} {q : Q} (hf : SmoothField f q) {x0 : Q → ι → ℝ}
    {y0 : Traced Q (ι → ℝ)} (h0 : Tracks q x0 y0) {t0 t1 : ℝ} {rest : List ℝ} (hinc : Increasing (t0 :: t1 :: rest)) (atol rtol : ℝ)
    (hinit : DifferentiableAt ℝ (initialStep tsit f f t0 atol rtol) (q, x0 q)) (rae : Bool) (args : A) (sel : Finset ι) (fuel : ℕ)
    (ts : List (Traced Q ℝ)) (ys : List (Traced Q (ι → ℝ)))
    (h : tracedOdeint tsit fuel f q y0 (t0 :: t1 :: rest) atol rtol rae sel = .ok (some (ts, ys))) :
    ts.length = ys.length ∧ ∀ (i : ℕ) t y, ts[i]? = some t → ys[i]? = some y →
      ∃ (τ : Q → ℝ) (x : Q → ι → ℝ), GraphRun (libSolver tsit ι A) args f q sel atol rtol
        (fun p => initialStep tsit f f t0 atol rtol (p, x0 p)) (t1 :: rest) t0 x0 τ x ∧
        t.1 = τ q ∧ HasFDerivAt τ t.2 q ∧ y.1 = x q ∧ HasFDerivAt x y.2 q := by
  have hdir : ¬ t1 < t0 := not_lt.2 (List.pairwise_cons.1 hinc |>.1 t1 (by simp)).le
  rw [tracedOdeint_forward tsit fuel f q y0 rest atol rtol rae sel (not_lt.1 hdir)] at h
  exact graph_core tsit hf h0 hinc atol rtol hinit rae args sel fuel ts ys h

/-- **C132 (gradients, backwards in time).** The same for decreasing times, in terms of the mirrored field `-f(-t, x)`. -/
theorem C132_gradient_backward (tsit : Bool) {f : Q → ℝ → (ι → ℝ) → (ι → ℝ)} {q : Q} (hf : SmoothField f q) {x0 : Q → ι → ℝ}
    {y0 : Traced Q (ι → ℝ)} (h0 : Tracks q x0 y0) {t0 t1 : ℝ} {rest : List ℝ} (hdec : (t0 :: t1 :: rest).Pairwise (· > ·))
    (atol rtol : ℝ) (hinit : DifferentiableAt ℝ (initialStep tsit f (fun p t x => -f p (-t) x) (-t0) atol rtol) (q, x0 q)) (rae : Bool)
    (args : A) (sel : Finset ι) (fuel : ℕ) (ts : List (Traced Q ℝ)) (ys : List (Traced Q (ι → ℝ)))
    (h : tracedOdeint tsit fuel f q y0 (t0 :: t1 :: rest) atol rtol rae sel = .ok (some (ts, ys))) :
    ts.length = ys.length ∧ ∀ (i : ℕ) t y, ts[i]? = some t → ys[i]? = some y →
      ∃ (τ : Q → ℝ) (x : Q → ι → ℝ), GraphRun (libSolver tsit ι A) args (fun p t x => -f p (-t) x) q sel atol rtol
        (fun p => initialStep tsit f (fun p t x => -f p (-t) x) (-t0) atol rtol (p, x0 p)) ((t1 :: rest).map fun t => -t) (-t0) x0 τ x ∧
        t.1 = τ q ∧ HasFDerivAt τ t.2 q ∧ y.1 = x q ∧ HasFDerivAt x y.2 q := by
  have hdir : t1 < t0 := List.pairwise_cons.1 hdec |>.1 t1 (by simp)
  rw [tracedOdeint_backward tsit fuel f q y0 rest atol rtol rae sel hdir] at h
  have hinc : Increasing (-t0 :: -t1 :: rest.map fun t => -t) := by
    have : (-t0 :: -t1 :: rest.map fun t => -t) = (t0 :: t1 :: rest).map fun t => -t := rfl
    rw [Increasing, this, List.pairwise_map]
    exact hdec.imp fun h => neg_lt_neg h
  exact graph_core tsit hf.reverse h0 hinc atol rtol hinit rae args sel fuel ts ys h

/-! ### Runs in which the times do not depend on the inputs -/

/-- The loop in the graph, when times and step sizes are constants. -/
noncomputable def constCfg (cfg : TracedCfg Q (ι → ℝ)) : AdaptiveCfg (Except PyErr) ℝ (Traced Q (ι → ℝ)) where
  step x t dt k1 := .ok (.four (cfg.step x (leaf t) (leaf dt) k1).1 (cfg.step x (leaf t) (leaf dt) k1).2.1
    (cfg.step x (leaf t) (leaf dt) k1).2.2 [])
  errRatio x x' e := cfg.errRatio x.1 x'.1 e.1
  adapt := cfg.adapt
  interp := none
  returnAllEval := cfg.returnAllEval

/-- Constants as tensors of the graph. -/
noncomputable def AState.embed {V : Type} [NormedAddCommGroup V] [NormedSpace ℝ V] (s : AState ℝ (Traced Q V)) : AState (Traced Q ℝ) (Traced Q V) :=
  { t := leaf s.t, dt := leaf s.dt, x := s.x, k1 := s.k1, ckpt := s.ckpt, ckptFlag := s.ckptFlag, dtOld := leaf s.dtOld,
    evalTimes := s.evalTimes.map leaf, sol := s.sol }

section

variable {V : Type} [NormedAddCommGroup V] [NormedSpace ℝ V]

theorem leaf_add (a b : V) : (leaf a + leaf b : Traced Q V) = leaf (a + b) := by simp [leaf]

theorem leaf_sub (a b : V) : (leaf a - leaf b : Traced Q V) = leaf (a - b) := by simp [leaf]

theorem leaf_smul (c : ℝ) (a : V) : (c • leaf a : Traced Q V) = leaf (c • a) := by simp [leaf]

theorem tracedMul_leaf (c : ℝ) (y : Traced Q V) : tracedMul (leaf c) y = c • y := by
  refine Prod.ext rfl ?_
  ext v
  simp [tracedMul, leaf]

end

theorem tracedAccept_const (cfg : TracedCfg Q (ι → ℝ)) (tEval : List ℝ) (s : AState ℝ (Traced Q (ι → ℝ))) (dt : ℝ)
    (fNew xNew : Traced Q (ι → ℝ)) (st : List (Traced Q (ι → ℝ))) :
    tracedAccept cfg.returnAllEval tEval s.embed (leaf dt) fNew xNew =
      (acceptStep (constCfg cfg) tEval s dt fNew xNew st).map AState.embed := by
  have h1 : interpPhase (constCfg cfg) tEval s dt fNew xNew st = (s.ckpt, s.evalTimes, s.sol) := rfl
  unfold tracedAccept acceptStep
  rw [h1]
  simp only [bind, Except.bind]
  have hc : s.embed.ckpt = s.ckpt := rfl
  rw [hc]
  cases getItem (m := Except PyErr) tEval s.ckpt with
  | error e => rfl
  | ok te =>
    have ht : (s.embed.t + leaf dt : Traced Q ℝ) = leaf (s.t + dt) := leaf_add s.t dt
    have ht' : s.embed.t.1 + (leaf dt : Traced Q ℝ).1 = s.t + dt := rfl
    have hr : (constCfg cfg).returnAllEval = cfg.returnAllEval := rfl
    simp only [Except.map, pure, Except.pure, ht, ht', hr]
    by_cases hc : s.t + dt = te ∨ cfg.returnAllEval = true
    · simp only [if_pos hc]
      congr 1
      simp [AState.embed]
    · simp only [if_neg hc]
      rfl

theorem tracedIter_const (cfg : TracedCfg Q (ι → ℝ)) (tEval : List ℝ) (T : ℝ) (s : AState ℝ (Traced Q (ι → ℝ))) :
    tracedIter cfg tEval T s.embed = (adaptiveIter (constCfg cfg) tEval T s).map AState.embed := by
  have e1 : s.embed.t = leaf s.t := rfl
  have e2 : s.embed.dt = leaf s.dt := rfl
  have hcl : tracedClampDt T s.embed = leaf (clampDt T s) := by
    unfold tracedClampDt clampDt
    rw [e1, e2, leaf_sub]
    by_cases h : T < s.t + s.dt
    · rw [if_pos h, if_pos (show T < (leaf s.t : Traced Q ℝ).1 + (leaf s.dt : Traced Q ℝ).1 from h)]
    · rw [if_neg h, if_neg (show ¬ T < (leaf s.t : Traced Q ℝ).1 + (leaf s.dt : Traced Q ℝ).1 from h)]
  have hck : tracedCheckpointDt tEval s.embed (tracedClampDt T s.embed) =
      (leaf (checkpointDt false tEval s (clampDt T s)).1, leaf (checkpointDt false tEval s (clampDt T s)).2.1,
        (checkpointDt false tEval s (clampDt T s)).2.2) := by
    rw [hcl]
    generalize clampDt T s = d
    unfold checkpointDt tracedCheckpointDt
    have e3 : s.embed.ckpt = s.ckpt := rfl
    rw [e1, e3]
    cases tEval[s.ckpt]? with
    | none => rfl
    | some te =>
      simp only [leaf_sub, Bool.not_false, Bool.true_and]
      by_cases h : te < s.t + d
      · simp only [if_pos (show te < (leaf s.t : Traced Q ℝ).1 + (leaf d : Traced Q ℝ).1 from h)]
        simp [h]
      · simp only [if_neg (show ¬ te < (leaf s.t : Traced Q ℝ).1 + (leaf d : Traced Q ℝ).1 from h)]
        simp [h]
        exact ⟨rfl, rfl⟩
  have hi : (constCfg cfg).interp.isSome = false := rfl
  unfold tracedIter adaptiveIter
  simp only [hi, hck]
  generalize checkpointDt false tEval s (clampDt T s) = d
  obtain ⟨dt, dtOld, flag⟩ := d
  have e3 : s.embed.x = s.x := rfl
  have e4 : s.embed.k1 = s.k1 := rfl
  have e5 : (constCfg cfg).step s.x s.t dt s.k1 = .ok (.four (cfg.step s.x (leaf s.t) (leaf dt) s.k1).1
    (cfg.step s.x (leaf s.t) (leaf dt) s.k1).2.1 (cfg.step s.x (leaf s.t) (leaf dt) s.k1).2.2 []) := rfl
  have e6 : ∀ x x' e, (constCfg cfg).errRatio x x' e = cfg.errRatio x.1 x'.1 e.1 := fun _ _ _ => rfl
  have e7 : (constCfg cfg).adapt = cfg.adapt := rfl
  simp only [bind, Except.bind, StepOut.unpack4, pure, Except.pure, e1, e3, e4, e5, e6, e7]
  by_cases hle : cfg.errRatio s.x.1 (cfg.step s.x (leaf s.t) (leaf dt) s.k1).2.1.1 (cfg.step s.x (leaf s.t) (leaf dt) s.k1).2.2.1 ≤ 1
  · simp only [if_pos hle]
    rw [tracedAccept_const cfg tEval s dt (cfg.step s.x (leaf s.t) (leaf dt) s.k1).1 (cfg.step s.x (leaf s.t) (leaf dt) s.k1).2.1 []]
    cases acceptStep (constCfg cfg) tEval s dt (cfg.step s.x (leaf s.t) (leaf dt) s.k1).1 (cfg.step s.x (leaf s.t) (leaf dt) s.k1).2.1 [] with
    | error e => rfl
    | ok s' =>
      simp only [Except.map]
      cases flag <;> rfl
  · simp only [if_neg hle]
    cases flag <;> rfl

theorem tracedLoop_const (cfg : TracedCfg Q (ι → ℝ)) (tEval : List ℝ) (T : ℝ) (fuel : ℕ) (s : AState ℝ (Traced Q (ι → ℝ))) :
    tracedLoop cfg tEval T fuel s.embed = (adaptiveLoop (constCfg cfg) tEval T fuel s).map (Option.map AState.embed) := by
  induction fuel generalizing s with
  | zero => rfl
  | succ fuel ih =>
    have ht : s.embed.t.1 = s.t := rfl
    rw [tracedLoop, adaptiveLoop, ht]
    split
    · simp only [bind, Except.bind]
      rw [tracedIter_const]
      cases adaptiveIter (constCfg cfg) tEval T s with
      | error e => rfl
      | ok s' => exact ih s'
    · rfl

theorem tracedAdaptive_const (cfg : TracedCfg Q (ι → ℝ)) (fuel : ℕ) (k1 x : Traced Q (ι → ℝ)) (dt : ℝ) (ts : List ℝ) :
    tracedAdaptive cfg fuel k1 x (leaf dt) ts =
      (adaptiveOdeint (constCfg cfg) fuel k1 x dt ts).map (Option.map fun r => (r.1.map leaf, r.2)) := by
  unfold tracedAdaptive adaptiveOdeint
  cases getItem (m := Except PyErr) ts 0 with
  | error e => rfl
  | ok t =>
    cases getItem (m := Except PyErr) ts (ts.length - 1) with
    | error e => rfl
    | ok T =>
      simp only [bind, Except.bind]
      have hi : adaptiveInit k1 x (leaf dt) (leaf t) = (adaptiveInit k1 x dt t).embed := rfl
      rw [hi, tracedLoop_const]
      cases adaptiveLoop (constCfg cfg) (ts.drop 1) T fuel (adaptiveInit k1 x dt t) with
      | error e => rfl
      | ok r => cases r <;> rfl

/-! ### Tolerances and gradients -/

/-- A field that is linear in its parameter and does not depend on the state. -/
def powField (θ t : ℝ) (_ : Unit → ℝ) : Unit → ℝ := fun _ => θ * (21 * t ^ 20)

/-- Its solutions from zero. -/
def powSol (θ t : ℝ) : Unit → ℝ := fun _ => θ * t ^ 21

/-- The derivative of `θ ↦ (θ)`. -/
noncomputable def unitGrad : ℝ →L[ℝ] (Unit → ℝ) := ContinuousLinearMap.pi fun _ => ContinuousLinearMap.id ℝ ℝ

theorem powField_smooth (q : ℝ) : SmoothField powField q := by
  intro t x
  rw [differentiableAt_pi]
  intro i
  unfold powField
  fun_prop

theorem powField_timed (t : ℝ) (y : Traced ℝ (Unit → ℝ)) :
    timedField powField 0 (leaf t) y = (21 * t ^ 20) • ((0, unitGrad) : Traced ℝ (Unit → ℝ)) := by
  have h1 := (Tracks.timed (powField_smooth 0) (x := fun p => y.1 + y.2 p) (y := y)
    ⟨by simp, (y.2.hasFDerivAt (x := (0 : ℝ))).const_add y.1⟩ (Tracks.const (0 : ℝ) t))
  have h2 : HasFDerivAt (fun p : ℝ => powField p t (y.1 + y.2 p)) ((21 * t ^ 20) • unitGrad) 0 := by
    rw [hasFDerivAt_pi']
    intro i
    have := (ContinuousLinearMap.id ℝ ℝ).hasFDerivAt (x := (0 : ℝ))
    have := this.mul_const (21 * t ^ 20)
    refine this.congr_fderiv ?_
    ext
    simp [unitGrad]
  refine Prod.ext ?_ ?_
  · funext i
    simp [powField, timedField]
  · exact h1.2.unique h2

/-- The quadrature of `21 t²⁰` by the weights of a tableau. -/
noncomputable def powQuad (tab : Tableau ℝ) (t d : ℝ) : ℝ :=
  d * (nth tab.bsol 0 * (21 * t ^ 20) + nth tab.bsol 1 * (21 * (t + nth tab.c 0 * d) ^ 20)
    + nth tab.bsol 2 * (21 * (t + nth tab.c 1 * d) ^ 20) + nth tab.bsol 3 * (21 * (t + nth tab.c 2 * d) ^ 20)
    + nth tab.bsol 4 * (21 * (t + nth tab.c 3 * d) ^ 20) + nth tab.bsol 5 * (21 * (t + nth tab.c 4 * d) ^ 20))

theorem timedRk7_const {V : Type} [NormedAddCommGroup V] [NormedSpace ℝ V] (tab : Tableau ℝ)
    (F : Traced Q ℝ → Traced Q V → Traced Q V) (G : ℝ → Traced Q V) (hF : ∀ t y, F (leaf t) y = G t) (y : Traced Q V) (t d : ℝ) :
    timedRk7Step tab F y (leaf t) (leaf d) (G t) =
      (G (t + nth tab.c 5 * d),
        y + d • (nth tab.bsol 0 • G t + nth tab.bsol 1 • G (t + nth tab.c 0 * d) + nth tab.bsol 2 • G (t + nth tab.c 1 * d)
          + nth tab.bsol 3 • G (t + nth tab.c 2 * d) + nth tab.bsol 4 • G (t + nth tab.c 3 * d)
          + nth tab.bsol 5 • G (t + nth tab.c 4 * d)),
        d • (nth tab.berr 0 • G t + nth tab.berr 1 • G (t + nth tab.c 0 * d) + nth tab.berr 2 • G (t + nth tab.c 1 * d)
          + nth tab.berr 3 • G (t + nth tab.c 2 * d) + nth tab.berr 4 • G (t + nth tab.c 3 * d)
          + nth tab.berr 5 • G (t + nth tab.c 4 * d) + nth tab.berr 6 • G (t + nth tab.c 5 * d))) := by
  unfold timedRk7Step
  simp only [leaf_smul, leaf_add, hF, tracedMul_leaf, smul_eq_mul]

theorem timedRk7_pow (tab : Tableau ℝ) (s t d : ℝ) :
    ∃ e, timedRk7Step tab (timedField powField 0) (s • ((0, unitGrad) : Traced ℝ (Unit → ℝ))) (leaf t) (leaf d)
      ((21 * t ^ 20) • ((0, unitGrad) : Traced ℝ (Unit → ℝ))) =
      ((21 * (t + nth tab.c 5 * d) ^ 20) • ((0, unitGrad) : Traced ℝ (Unit → ℝ)),
        (s + powQuad tab t d) • ((0, unitGrad) : Traced ℝ (Unit → ℝ)), e) ∧ e.1 = 0 := by
  have hF := powField_timed
  have hU : ((0, unitGrad) : Traced ℝ (Unit → ℝ)).1 = 0 := rfl
  generalize ((0, unitGrad) : Traced ℝ (Unit → ℝ)) = U at hU hF ⊢
  have h := timedRk7_const tab (timedField powField 0) (fun t => (21 * t ^ 20) • U) hF (s • U) t d
  have hX : s • U + d • (nth tab.bsol 0 • (21 * t ^ 20) • U
      + nth tab.bsol 1 • (21 * (t + nth tab.c 0 * d) ^ 20) • U + nth tab.bsol 2 • (21 * (t + nth tab.c 1 * d) ^ 20) • U
      + nth tab.bsol 3 • (21 * (t + nth tab.c 2 * d) ^ 20) • U + nth tab.bsol 4 • (21 * (t + nth tab.c 3 * d) ^ 20) • U
      + nth tab.bsol 5 • (21 * (t + nth tab.c 4 * d) ^ 20) • U) = (s + powQuad tab t d) • U := by
    unfold powQuad
    generalize (t + nth tab.c 0 * d) ^ 20 = g0
    generalize (t + nth tab.c 1 * d) ^ 20 = g1
    generalize (t + nth tab.c 2 * d) ^ 20 = g2
    generalize (t + nth tab.c 3 * d) ^ 20 = g3
    generalize (t + nth tab.c 4 * d) ^ 20 = g4
    generalize t ^ 20 = g
    module
  simp only [hX] at h
  exact ⟨_, h, by simp [hU]⟩

/-- The sum of the quadratures over the first steps. -/
noncomputable def powSum (tab : Tableau ℝ) : ℕ → ℝ
  | 0 => 0
  | k + 1 => powSum tab k + powQuad tab ((10 ^ k - 1) / (9 * 10 ^ 6)) (10 ^ k / 10 ^ 6)

/-- Near the parameter zero the first step size is constant. -/
theorem powField_initialStep (tsit : Bool) {atol rtol : ℝ} (ha : 0 < atol) (hr : 0 ≤ rtol) (x : Unit → ℝ) :
    ∀ᶠ p in nhds ((0 : ℝ), x), initialStep tsit powField powField 0 atol rtol p = 1 / 10 ^ 6 := by
  have hev : ∀ᶠ p in nhds ((0 : ℝ), x), |p.1| < atol := by
    have : Continuous fun p : ℝ × (Unit → ℝ) => |p.1| := by fun_prop
    exact this.continuousAt.eventually_lt continuousAt_const (by simpa using ha)
  filter_upwards [hev] with p hp
  have hn : ∀ u : Unit → ℝ, hairerNorm u = |u ()| := by
    intro u
    simp [hairerNorm, hairerNormOn, Real.sqrt_sq_eq_abs]
  have hs : 0 < atol + |p.2 ()| * rtol := by positivity
  have h0 : powField p.1 0 p.2 = fun _ => 0 := by
    funext i
    simp [powField]
  have hd2 : |(powField p.1 (0 + 1 / 10 ^ 6) fun i => p.2 i + 1 / 10 ^ 6 * 0) () - 0| / (atol + |p.2 ()| * rtol) / (1 / 10 ^ 6) ≤
      1 / 10 ^ 15 := by
    rw [div_le_iff₀ (by norm_num), div_le_iff₀ hs]
    have h1 : |p.1 * (21 * (0 + 1 / 10 ^ 6) ^ 20) - 0| = |p.1| * (21 * (1 / 10 ^ 6) ^ 20) := by
      rw [sub_zero, zero_add, abs_mul]
      congr 1
      exact abs_of_nonneg (by positivity)
    have h2 : atol ≤ atol + |p.2 ()| * rtol := le_add_of_nonneg_right (by positivity)
    unfold powField
    rw [h1]
    have h3 : (21 * (1 / 10 ^ 6) ^ 20 : ℝ) ≤ 1 / 10 ^ 15 * (1 / 10 ^ 6) := by norm_num
    calc |p.1| * (21 * (1 / 10 ^ 6) ^ 20) ≤ atol * (1 / 10 ^ 15 * (1 / 10 ^ 6)) := by
          apply mul_le_mul hp.le h3 (by positivity) ha.le
      _ ≤ (atol + |p.2 ()| * rtol) * (1 / 10 ^ 15 * (1 / 10 ^ 6)) := mul_le_mul_of_nonneg_right h2 (by norm_num)
      _ = _ := by ring
  have hz : hairerNorm (fun i : Unit => (0 : ℝ) / (atol + |p.2 i| * rtol)) = 0 := by rw [hn]; simp
  have ht : initTrial (hairerNorm fun i => p.2 i / (atol + |p.2 i| * rtol)) 0 = 1 / 10 ^ 6 := by
    simp [initTrial]
  unfold initialStep
  simp only [initStep, h0, hz, ht, bind, pureField, pure]
  rw [hn, initSecond, if_pos ⟨by norm_num, by rw [abs_div, abs_of_pos hs]; exact hd2⟩]
  norm_num

theorem powField_run (tsit : Bool) (tab : Tableau ℝ) (htab : tab = if tsit then constructTsit5 ℝ else constructDopri5 ℝ)
    {atol rtol : ℝ} (ha : 0 < atol) (hr : 0 ≤ rtol) (sel : Finset Unit) (fuel : ℕ) :
    tracedOdeint tsit (fuel + 8) powField 0 (leaf 0) [0, 1] atol rtol false sel =
      .ok (some ([leaf 0, leaf 1], [leaf 0,
        (powSum tab 6 + powQuad tab (111111 / 10 ^ 6) (888889 / 10 ^ 6)) • ((0, unitGrad) : Traced ℝ (Unit → ℝ))])) := by
  have hinit : tracedInitialStep tsit powField powField 0 (leaf (0 : Unit → ℝ)) 0 atol rtol = leaf (1 / 10 ^ 6) := by
    have hev := powField_initialStep tsit ha hr (0 : Unit → ℝ)
    have h1 : HasFDerivAt (initialStep tsit powField powField 0 atol rtol) (0 : ℝ × (Unit → ℝ) →L[ℝ] ℝ) ((0 : ℝ), (0 : Unit → ℝ)) :=
      (hasFDerivAt_const (1 / 10 ^ 6 : ℝ) _).congr_of_eventuallyEq hev
    refine Prod.ext hev.self_of_nhds ?_
    show (fderiv ℝ (initialStep tsit powField powField 0 atol rtol) ((0 : ℝ), (0 : Unit → ℝ))).comp _ = _
    rw [h1.fderiv, ContinuousLinearMap.zero_comp]
    rfl
  rw [tracedOdeint_forward tsit (fuel + 8) powField 0 (leaf 0) [] atol rtol false sel (zero_le_one (α := ℝ)), hinit, tracedAdaptive_const]
  have hc : nth tab.c 5 = 1 := by
    subst htab
    cases tsit <;> simp [constructDopri5, constructTsit5, nth]
  have hl : (leaf 0 : Traced ℝ (Unit → ℝ)) = powSum tab 0 • ((0, unitGrad) : Traced ℝ (Unit → ℝ)) := by
    simp [leaf, powSum]
  have herr : ∀ x x' e : Traced ℝ (Unit → ℝ), e.1 = 0 →
      (constCfg (tracedCfg tsit powField 0 atol rtol sel false)).errRatio x x' e = 0 := by
    intro x x' e he
    simp [constCfg, tracedCfg, errorRatio, hairerNormOn, errorScaled, he]
  have hstep : ∀ s t d, ∃ e st, (constCfg (tracedCfg tsit powField 0 atol rtol sel false)).step
        (s • ((0, unitGrad) : Traced ℝ (Unit → ℝ))) t d ((21 * t ^ 20) • ((0, unitGrad) : Traced ℝ (Unit → ℝ))) =
      .ok (.four ((21 * (t + d) ^ 20) • ((0, unitGrad) : Traced ℝ (Unit → ℝ)))
        ((s + powQuad tab t d) • ((0, unitGrad) : Traced ℝ (Unit → ℝ))) e st) ∧ e.1 = 0 := by
    intro s t d
    obtain ⟨e, h1, h2⟩ := timedRk7_pow tab s t d
    refine ⟨e, [], ?_, h2⟩
    rw [hc, one_mul] at h1
    unfold constCfg tracedCfg
    dsimp only
    rw [← htab, h1]
  obtain ⟨e', st', h1, h2⟩ := hstep (powSum tab 6) (111111 / 10 ^ 6) (888889 / 10 ^ 6)
  have := smooth_run (constCfg (tracedCfg tsit powField 0 atol rtol sel false)) rfl rfl
    (fun d => by cases tsit <;> simp [constCfg, tracedCfg, adaptStep, adaptiveSolver, dopri5Solver, tsit5Solver])
    (fun k => powSum tab k • ((0, unitGrad) : Traced ℝ (Unit → ℝ)))
    (fun k => ((21 : ℝ) * ((10 ^ k - 1) / (9 * 10 ^ 6)) ^ 20) • ((0, unitGrad) : Traced ℝ (Unit → ℝ))) 0
    (fun k _ => by
      obtain ⟨e, st, h1, h2⟩ := hstep (powSum tab k) ((10 ^ k - 1) / (9 * 10 ^ 6)) (10 ^ k / 10 ^ 6)
      refine ⟨e, st, ?_, herr _ _ _ h2⟩
      rw [zero_add]
      have ht : ((10 : ℝ) ^ k - 1) / (9 * 10 ^ 6) + 10 ^ k / 10 ^ 6 = (10 ^ (k + 1) - 1) / (9 * 10 ^ 6) := by ring
      rw [ht] at h1
      rw [powSum]
      rw [h1])
    (((21 : ℝ) * (111111 / 10 ^ 6 + 888889 / 10 ^ 6) ^ 20) • ((0, unitGrad) : Traced ℝ (Unit → ℝ)))
    ((powSum tab 6 + powQuad tab (111111 / 10 ^ 6) (888889 / 10 ^ 6)) • ((0, unitGrad) : Traced ℝ (Unit → ℝ))) e' st' (by
      rw [zero_add]
      have : ((10 : ℝ) ^ 6 - 1) / (9 * 10 ^ 6) = 111111 / 10 ^ 6 := by norm_num
      rw [this]
      rw [h1]) (by rw [herr _ _ _ h2]; norm_num) fuel
  rw [zero_add] at this
  rw [powField_timed, hl]
  have h0 : (21 * (0 : ℝ) ^ 20) = 21 * (((10 : ℝ) ^ 0 - 1) / (9 * 10 ^ 6)) ^ 20 := by norm_num
  rw [h0]
  rw [this]
  rfl

/-- What is used of the two tableaus. -/
structure PowTab (tab : Tableau ℝ) : Prop where
  b0 : 0 ≤ nth tab.bsol 0
  b1 : 0 ≤ nth tab.bsol 1
  b2 : 0 ≤ nth tab.bsol 2
  b3 : 0 ≤ nth tab.bsol 3
  b4 : nth tab.bsol 4 ≤ 0
  b4' : -4 ≤ nth tab.bsol 4
  b5 : 0 ≤ nth tab.bsol 5
  c : ∀ i < 5, 0 ≤ nth tab.c i ∧ nth tab.c i ≤ 1
  last : 19 / 10 + 1 / 10 ^ 3 ≤ powQuad tab (111111 / 10 ^ 6) (888889 / 10 ^ 6)

theorem PowTab.lower {tab : Tableau ℝ} (h : PowTab tab) {t d : ℝ} (ht : 0 ≤ t) (hd : 0 ≤ d) :
    -(84 * d * (t + d) ^ 20) ≤ powQuad tab t d := by
  have hc : ∀ i < 5, 0 ≤ (t + nth tab.c i * d) ^ 20 := fun i hi => pow_nonneg (by have := (h.c i hi).1; positivity) _
  have h4 : (t + nth tab.c 3 * d) ^ 20 ≤ (t + d) ^ 20 := by
    have := h.c 3 (by norm_num)
    have h0 := this.1
    exact pow_le_pow_left₀ (by positivity) (by nlinarith [this.2]) 20
  have e0 := mul_nonneg h.b0 (mul_nonneg (by norm_num : (0 : ℝ) ≤ 21) (pow_nonneg ht 20))
  have e1 := mul_nonneg h.b1 (mul_nonneg (by norm_num : (0 : ℝ) ≤ 21) (hc 0 (by norm_num)))
  have e2 := mul_nonneg h.b2 (mul_nonneg (by norm_num : (0 : ℝ) ≤ 21) (hc 1 (by norm_num)))
  have e3 := mul_nonneg h.b3 (mul_nonneg (by norm_num : (0 : ℝ) ≤ 21) (hc 2 (by norm_num)))
  have e5 := mul_nonneg h.b5 (mul_nonneg (by norm_num : (0 : ℝ) ≤ 21) (hc 4 (by norm_num)))
  have e4 : -84 * (t + d) ^ 20 ≤ nth tab.bsol 4 * (21 * (t + nth tab.c 3 * d) ^ 20) := by
    have h1 : 0 ≤ (4 + nth tab.bsol 4) * (21 * (t + nth tab.c 3 * d) ^ 20) :=
      mul_nonneg (by linarith [h.b4']) (mul_nonneg (by norm_num) (hc 3 (by norm_num)))
    nlinarith
  have : -(84 * d * (t + d) ^ 20) = d * (-84 * (t + d) ^ 20) := by ring
  rw [this]
  exact mul_le_mul_of_nonneg_left (by linarith) hd

theorem PowTab.sum {tab : Tableau ℝ} (h : PowTab tab) : ∀ k : ℕ, k ≤ 6 → -((k : ℝ) / 10 ^ 6) ≤ powSum tab k := by
  intro k
  induction k with
  | zero => simp [powSum]
  | succ k ih =>
    intro hk
    have hp : (10 : ℝ) ^ k ≤ 10 ^ 5 := pow_le_pow_right₀ (by norm_num) (by omega)
    have h1 : (1 : ℝ) ≤ 10 ^ k := one_le_pow₀ (by norm_num)
    have ht : 0 ≤ ((10 : ℝ) ^ k - 1) / (9 * 10 ^ 6) := div_nonneg (by linarith) (by norm_num)
    have hd : 0 ≤ (10 : ℝ) ^ k / 10 ^ 6 := by positivity
    have hd' : (10 : ℝ) ^ k / 10 ^ 6 ≤ 1 / 10 := by rw [div_le_iff₀ (by norm_num)]; linarith
    have htd : ((10 : ℝ) ^ k - 1) / (9 * 10 ^ 6) + 10 ^ k / 10 ^ 6 ≤ 1 / 5 := by
      have h1 : ((10 : ℝ) ^ k - 1) / (9 * 10 ^ 6) ≤ 1 / 10 := by rw [div_le_iff₀ (by norm_num)]; linarith
      linarith
    have hl := h.lower ht hd
    have hpow : (((10 : ℝ) ^ k - 1) / (9 * 10 ^ 6) + 10 ^ k / 10 ^ 6) ^ 20 ≤ (1 / 5) ^ 20 :=
      pow_le_pow_left₀ (by positivity) htd 20
    have hm : 84 * ((10 : ℝ) ^ k / 10 ^ 6) * (((10 : ℝ) ^ k - 1) / (9 * 10 ^ 6) + 10 ^ k / 10 ^ 6) ^ 20 ≤ 84 * (1 / 10) * (1 / 5) ^ 20 :=
      mul_le_mul (by linarith) hpow (by positivity) (by norm_num)
    have hn : (84 : ℝ) * (1 / 10) * (1 / 5) ^ 20 ≤ 1 / 10 ^ 6 := by norm_num
    have := ih (by omega)
    rw [powSum]
    push_cast
    have : ((k : ℝ) + 1) / 10 ^ 6 = k / 10 ^ 6 + 1 / 10 ^ 6 := by ring
    rw [this]
    linarith

theorem dopri5_powTab : PowTab (constructDopri5 ℝ) where
  b0 := by norm_num [constructDopri5, dopri5Bsol, nth]
  b1 := by norm_num [constructDopri5, dopri5Bsol, nth]
  b2 := by norm_num [constructDopri5, dopri5Bsol, nth]
  b3 := by norm_num [constructDopri5, dopri5Bsol, nth]
  b4 := by norm_num [constructDopri5, dopri5Bsol, nth]
  b4' := by norm_num [constructDopri5, dopri5Bsol, nth]
  b5 := by norm_num [constructDopri5, dopri5Bsol, nth]
  c i hi := by interval_cases i <;> norm_num [constructDopri5, nth]
  last := by norm_num [powQuad, constructDopri5, dopri5Bsol, nth]

theorem tsit5_powTab : PowTab (constructTsit5 ℝ) where
  b0 := by norm_num [constructTsit5, tsit5Bsol, nth]
  b1 := by norm_num [constructTsit5, tsit5Bsol, nth]
  b2 := by norm_num [constructTsit5, tsit5Bsol, nth]
  b3 := by norm_num [constructTsit5, tsit5Bsol, nth]
  b4 := by norm_num [constructTsit5, tsit5Bsol, nth]
  b4' := by norm_num [constructTsit5, tsit5Bsol, nth]
  b5 := by norm_num [constructTsit5, tsit5Bsol, nth]
  c i hi := by interval_cases i <;> norm_num [constructTsit5, nth]
  last := by
    have c0 : nth (constructTsit5 ℝ).c 0 = 161 / 1000 := rfl
    have c1 : nth (constructTsit5 ℝ).c 1 = 327 / 1000 := rfl
    have c2 : nth (constructTsit5 ℝ).c 2 = 9 / 10 := rfl
    have c3 : nth (constructTsit5 ℝ).c 3 ≤ 9801 / 10000 := by norm_num [constructTsit5, nth]
    have c3' : 0 ≤ nth (constructTsit5 ℝ).c 3 := by norm_num [constructTsit5, nth]
    have c4 : nth (constructTsit5 ℝ).c 4 = 1 := rfl
    have b0 : 9 / 100 ≤ nth (constructTsit5 ℝ).bsol 0 := by norm_num [constructTsit5, tsit5Bsol, nth]
    have b1 : nth (constructTsit5 ℝ).bsol 1 = 1 / 100 := rfl
    have b2 : 47 / 100 ≤ nth (constructTsit5 ℝ).bsol 2 := by norm_num [constructTsit5, tsit5Bsol, nth]
    have b3 : 137 / 100 ≤ nth (constructTsit5 ℝ).bsol 3 := by norm_num [constructTsit5, tsit5Bsol, nth]
    have b4 : -(33 / 10) ≤ nth (constructTsit5 ℝ).bsol 4 := by norm_num [constructTsit5, tsit5Bsol, nth]
    have b5 : 232 / 100 ≤ nth (constructTsit5 ℝ).bsol 5 := by norm_num [constructTsit5, tsit5Bsol, nth]
    unfold powQuad
    rw [c0, c1, c2, c4, b1]
    have e4 : (111111 / 10 ^ 6 + nth (constructTsit5 ℝ).c 3 * (888889 / 10 ^ 6)) ^ 20 ≤ (983 / 1000 : ℝ) ^ 20 :=
      pow_le_pow_left₀ (by positivity) (by linarith) 20
    have e4' : 0 ≤ (111111 / 10 ^ 6 + nth (constructTsit5 ℝ).c 3 * (888889 / 10 ^ 6)) ^ 20 := by positivity
    generalize (111111 / 10 ^ 6 + nth (constructTsit5 ℝ).c 3 * (888889 / 10 ^ 6)) ^ 20 = g at e4 e4'
    generalize nth (constructTsit5 ℝ).bsol 0 = w0 at b0
    generalize nth (constructTsit5 ℝ).bsol 2 = w2 at b2
    generalize nth (constructTsit5 ℝ).bsol 3 = w3 at b3
    generalize nth (constructTsit5 ℝ).bsol 4 = w4 at b4
    generalize nth (constructTsit5 ℝ).bsol 5 = w5 at b5
    have d4 : -(33 / 10) * (21 * (983 / 1000 : ℝ) ^ 20) ≤ w4 * (21 * g) := by
      have h1 : 0 ≤ (w4 + 33 / 10) * (21 * g) := mul_nonneg (by linarith) (by positivity)
      have h2 : (21 : ℝ) * g ≤ 21 * (983 / 1000 : ℝ) ^ 20 := by linarith
      linarith
    have d0 := mul_le_mul_of_nonneg_right b0 (by positivity : (0 : ℝ) ≤ 21 * (111111 / 10 ^ 6) ^ 20)
    have d2 := mul_le_mul_of_nonneg_right b2 (by positivity : (0 : ℝ) ≤ 21 * (111111 / 10 ^ 6 + 327 / 1000 * (888889 / 10 ^ 6)) ^ 20)
    have d3 := mul_le_mul_of_nonneg_right b3 (by positivity : (0 : ℝ) ≤ 21 * (111111 / 10 ^ 6 + 9 / 10 * (888889 / 10 ^ 6)) ^ 20)
    have d5 := mul_le_mul_of_nonneg_right b5 (by positivity : (0 : ℝ) ≤ 21 * (111111 / 10 ^ 6 + 1 * (888889 / 10 ^ 6)) ^ 20)
    have hsum := add_le_add (add_le_add (add_le_add (add_le_add d0 (le_refl (1 / 100 * (21 * (111111 / 10 ^ 6 + 161 / 1000 *
      (888889 / 10 ^ 6 : ℝ)) ^ 20)))) d2) d3) (add_le_add d4 d5)
    have hnum : (19 / 10 + 1 / 10 ^ 3 : ℝ) ≤ 888889 / 10 ^ 6 * (9 / 100 * (21 * (111111 / 10 ^ 6) ^ 20)
        + 1 / 100 * (21 * (111111 / 10 ^ 6 + 161 / 1000 * (888889 / 10 ^ 6)) ^ 20)
        + 47 / 100 * (21 * (111111 / 10 ^ 6 + 327 / 1000 * (888889 / 10 ^ 6)) ^ 20)
        + 137 / 100 * (21 * (111111 / 10 ^ 6 + 9 / 10 * (888889 / 10 ^ 6)) ^ 20)
        + (-(33 / 10) * (21 * (983 / 1000 : ℝ) ^ 20) + 232 / 100 * (21 * (111111 / 10 ^ 6 + 1 * (888889 / 10 ^ 6)) ^ 20))) := by
      norm_num
    refine hnum.trans (mul_le_mul_of_nonneg_left (hsum.trans_eq ?_) (by norm_num))
    ring

/-- **C132, refuted (tolerances).** `odeint` with `dopri5` and `tsit5`, the default of `NeuralODE`, on a polynomial field that is linear
in its parameter, at parameter zero: for all tolerances the final state is exact and the derivative recorded by autograd is the same,
at least `1.9`, while the derivative of the solution is `1`. The error estimate sees the states only, so that no tolerance reduces the
error of the gradient. -/
theorem C132_tolerance_refuted :
    (∀ θ, powSol θ 0 = 0) ∧ (∀ θ t, HasDerivAt (powSol θ) (powField θ t (powSol θ t)) t) ∧
    HasFDerivAt (fun θ => powSol θ 1) unitGrad 0 ∧ unitGrad 1 () = 1 ∧
    ∀ (tsit : Bool) (sel : Finset Unit), ∃ y : Traced ℝ (Unit → ℝ), y.1 = powSol 0 1 ∧ 19 / 10 ≤ y.2 1 () ∧
      ∀ (atol rtol : ℝ) (fuel : ℕ), 0 < atol → 0 ≤ rtol → 8 ≤ fuel →
        tracedOdeint tsit fuel powField 0 (leaf 0) [0, 1] atol rtol false sel = .ok (some ([leaf 0, leaf 1], [leaf 0, y])) := by
  refine ⟨fun θ => ?_, fun θ t => ?_, ?_, rfl, fun tsit sel => ?_⟩
  · funext i
    simp [powSol]
  · rw [hasDerivAt_pi]
    intro i
    have := (hasDerivAt_pow 21 t).const_mul θ
    simpa [powSol, powField] using this
  · have : (fun θ => powSol θ 1) = unitGrad := by
      funext θ i
      simp [powSol, unitGrad]
    rw [this]
    exact unitGrad.hasFDerivAt
  · have htab : PowTab (if tsit then constructTsit5 ℝ else constructDopri5 ℝ) := by
      cases tsit
      · exact dopri5_powTab
      · exact tsit5_powTab
    refine ⟨(powSum (if tsit then constructTsit5 ℝ else constructDopri5 ℝ) 6 +
      powQuad (if tsit then constructTsit5 ℝ else constructDopri5 ℝ) (111111 / 10 ^ 6) (888889 / 10 ^ 6)) •
        ((0, unitGrad) : Traced ℝ (Unit → ℝ)), ?_, ?_, fun atol rtol fuel ha hr hf => ?_⟩
    rotate_left 2
    · obtain ⟨n, rfl⟩ := Nat.exists_eq_add_of_le hf
      rw [add_comm 8 n]
      exact powField_run tsit _ rfl ha hr sel n
    · funext i
      simp [powSol]
    · have h1 := htab.sum 6 le_rfl
      have h2 := htab.last
      have h3 : unitGrad 1 () = 1 := rfl
      simp only [Prod.smul_mk, _root_.smul_apply, Pi.smul_apply, smul_eq_mul, h3, mul_one]
      norm_num at h1 h2 ⊢
      linarith

/-- The hypotheses of `C132_gradient` are met by this run. -/
example (tsit : Bool) (sel : Finset Unit) {atol rtol : ℝ} (ha : 0 < atol) (hr : 0 ≤ rtol) : ∃ ts ys,
    tracedOdeint tsit 8 powField 0 (leaf 0) [0, 1] atol rtol false sel = .ok (some (ts, ys)) ∧ SmoothField powField (0 : ℝ) ∧
    Tracks (0 : ℝ) (fun _ => (0 : Unit → ℝ)) (leaf 0) ∧ Increasing [(0 : ℝ), 1] ∧
    DifferentiableAt ℝ (initialStep tsit powField powField 0 atol rtol) ((0 : ℝ), (0 : Unit → ℝ)) := by
  refine ⟨_, _, powField_run tsit _ rfl ha hr sel 0, powField_smooth 0, Tracks.const _ _, by simp [Increasing], ?_⟩
  exact ((hasFDerivAt_const (1 / 10 ^ 6 : ℝ) _).congr_of_eventuallyEq (powField_initialStep tsit ha hr (0 : Unit → ℝ))).differentiableAt

end Torchdyn
