import Verif.Props.Hybrid
import Verif.Props.Seminorm

/-!
Runs of `odeint_hybrid` that refute C34–C37 as first stated, and non-vacuity of the theorems of
`Verif.Props.Hybrid`.

All of them integrate the zero field from `t = 0` with `dopri5` and tolerances `1e-3`: the initial step
size is then `1e-6`, every step is accepted and every accepted step multiplies the step size by ten.
-/

set_option linter.unusedSectionVars false
set_option linter.unusedSimpArgs false

namespace Torchdyn

open Spec

/-- The field of the witnesses. -/
def zeroField : ℝ → (Unit → ℝ) → (Unit → ℝ) := fun _ _ => 0

/-- The solver of the witnesses. -/
noncomputable abbrev wSolver := dopri5Solver (Except PyErr) ℝ (Unit → ℝ) Unit

/-- The loop parameters of the witnesses. -/
noncomputable abbrev wCfg (cbs : List (EventCallback ℝ (Unit → ℝ))) (eventTol : ℝ) :=
  hybridCfg zeroField wSolver () (1 / 1000) (1 / 1000) Finset.univ cbs eventTol

theorem zero_step (cbs : List (EventCallback ℝ (Unit → ℝ))) (eventTol t dt : ℝ) (x : Unit → ℝ)
    (k1 : Option (Unit → ℝ)) (hk : k1 = none ∨ k1 = some 0) :
    ∃ st, (wCfg cbs eventTol).step x t dt k1 = .ok (.four 0 x 0 st) := by
  have aux : ∀ k x' e st, (wCfg cbs eventTol).step x t dt k1 = .ok (.four k x' e st) →
      k = 0 ∧ x' = x ∧ e = 0 := by
    intro k x' e st h
    rcases hk with rfl | rfl <;> cases h <;> simp [pureField, zeroField]
  obtain ⟨k, x', e, st, h, -⟩ := step_kok (f := zeroField) (atol := 1 / 1000) (rtol := 1 / 1000)
    (sel := Finset.univ) (cbs := cbs) (eventTol := eventTol) (t := t) (dt := dt) (x := x) (k1 := k1)
    (dopri5_fsalSolver (ι := Unit) ()) hk
  obtain ⟨rfl, rfl, rfl⟩ := aux _ _ _ _ h
  exact ⟨st, h⟩

/-- The state after a quiet step. -/
def zFlow (s : HState ℝ (Unit → ℝ)) (d : ℝ × ℝ × Bool × ℕ) : HState ℝ (Unit → ℝ) :=
  { t := s.t + d.1, dt := (if d.2.2.1 then d.2.1 - d.1 else d.1) * 10, x := s.x, k1 := some 0,
    ckpt := d.2.2.2, ckptFlag := false, dtOld := d.2.1, evalTimes := s.evalTimes ++ [s.t + d.1],
    sol := s.sol ++ [s.x] }

theorem zero_flow {cbs : List (EventCallback ℝ (Unit → ℝ))} {eventTol T : ℝ} {tEval : List ℝ}
    {s : HState ℝ (Unit → ℝ)} (d : ℝ × ℝ × Bool × ℕ) (hd : hybridDt tEval T s = d)
    (hk : s.k1 = none ∨ s.k1 = some 0) (hq : Quiet cbs (s.t + d.1, s.x)) :
    hybridIter (wCfg cbs eventTol) tEval T s = .ok (zFlow s d) := by
  obtain ⟨st, h⟩ := zero_step cbs eventTol s.t d.1 s.x s.k1 hk
  have hcb : (wCfg cbs eventTol).callbacks = cbs := rfl
  have ht := (triggered_quiet cbs (s.t + d.1) s.x).2 hq
  have her : (wCfg cbs eventTol).errRatio s.x s.x 0 = 0 := by
    simp [hybridCfg, errorRatio, hairerNormOn, errorScaled]
  have had : ∀ dt, (wCfg cbs eventTol).adapt dt 0 = dt * 10 := by
    intro dt
    simp only [hybridCfg, adaptStep, if_true]
    rfl
  simp only [hybridIter, hd, h, bind, Except.bind, StepOut.unpack4, pure, Except.pure, hcb, ht,
    lt_self_iff_false, if_false, hybridFlow, her, had, zero_le_one, if_true, zFlow]

theorem zero_jump {cbs : List (EventCallback ℝ (Unit → ℝ))} {eventTol T : ℝ} {tEval : List ℝ}
    {s : HState ℝ (Unit → ℝ)} (d : ℝ × ℝ × Bool × ℕ) (hd : hybridDt tEval T s = d)
    (hk : s.k1 = none ∨ s.k1 = some 0) (hq : ¬ Quiet cbs (s.t + d.1, s.x)) (b : BState ℝ (Unit → ℝ))
    (hb : bisect (wCfg cbs eventTol) d.1 100 (bisectStart s d.1 (eventStates cbs (s.t + d.1) s.x)) =
      .ok b) (i : ℕ) (hi : (firstActive b.events : Except PyErr ℕ) = .ok i)
    (cb : EventCallback ℝ (Unit → ℝ)) (hcb' : cbs[i]? = some cb) :
    hybridIter (wCfg cbs eventTol) tEval T s = .ok (afterJump s d b cb) := by
  obtain ⟨st, h⟩ := zero_step cbs eventTol s.t d.1 s.x s.k1 hk
  have hcb : (wCfg cbs eventTol).callbacks = cbs := rfl
  have ht : 0 < triggeredEvents (eventStates cbs (s.t + d.1) s.x) :=
    Nat.pos_of_ne_zero (fun h => hq ((triggered_quiet cbs (s.t + d.1) s.x).1 h))
  have hg : (getItem cbs i : Except PyErr _) = .ok cb := by
    unfold getItem
    rw [hcb']
    rfl
  simp only [bisectStart] at hb
  simp only [hybridIter, hd, h, bind, Except.bind, StepOut.unpack4, pure, Except.pure, hcb, if_pos ht,
    hybridJump, hb, hi, hg, afterJump]

theorem zero_bisect {cbs : List (EventCallback ℝ (Unit → ℝ))} {eventTol dt : ℝ} {n : ℕ}
    {b : BState ℝ (Unit → ℝ)} (hk : b.k1 = none ∨ b.k1 = some 0) (htol : eventTol < b.dtInner) :
    bisect (wCfg cbs eventTol) dt (n + 1) b =
      bisect (wCfg cbs eventTol) dt n
        (if triggeredEvents (eventStates cbs (b.tInner + b.dtInner / 2) b.xInner) = 0 then
          ⟨b.tInner + b.dtInner / 2, dt, b.xInner, some 0,
            eventStates cbs (b.tInner + b.dtInner / 2) b.xInner⟩
        else ⟨b.tInner, b.dtInner / 2, b.xInner, b.k1,
          eventStates cbs (b.tInner + b.dtInner / 2) b.xInner⟩) := by
  obtain ⟨st, h⟩ := zero_step cbs eventTol b.tInner (b.dtInner / 2) b.xInner b.k1 hk
  have hcb : (wCfg cbs eventTol).callbacks = cbs := rfl
  have htol' : (wCfg cbs eventTol).eventTol < b.dtInner := htol
  rw [bisect, if_pos htol']
  simp only [h, bind, Except.bind, StepOut.unpack4, pure, Except.pure, hcb]
  split_ifs <;> rfl

theorem zero_bisect_stop {cbs : List (EventCallback ℝ (Unit → ℝ))} {eventTol dt : ℝ} {n : ℕ}
    {b : BState ℝ (Unit → ℝ)} (htol : ¬ eventTol < b.dtInner) :
    bisect (wCfg cbs eventTol) dt n b = .ok b := by
  have htol' : ¬ (wCfg cbs eventTol).eventTol < b.dtInner := htol
  cases n with
  | zero => rfl
  | succ n => rw [bisect, if_neg htol']; rfl

theorem zero_initStep (t0 : ℝ) : initStep (m := Except PyErr) (pureField zeroField) 0 (fun _ : Unit => (0 : ℝ)) t0 5
    (1 / 1000) (1 / 1000) = .ok (1 / 10 ^ 6) := by
  have hz : hairerNorm (fun _ : Unit => (0 : ℝ)) = 0 := by simp [hairerNorm, hairerNormOn]
  have ht : ∀ d, initTrial 0 d = 1 / 10 ^ 6 := by
    intro d
    unfold initTrial
    rw [if_pos (Or.inl (by norm_num))]
  have hz' : (hairerNorm fun i : Unit => (0 : Unit → ℝ) i / (1 / 1000 + |(0 : ℝ)| * (1 / 1000))) = 0 := by
    simp [hairerNorm, hairerNormOn]
  simp only [initStep, pureField, bind, Except.bind, pure, Except.pure, zero_div, zeroField, sub_self,
    Pi.zero_apply, hz, hz', ht]
  congr 1
  unfold initSecond
  rw [if_pos (by norm_num)]
  norm_num

/-- The run of a witness reduces to its loop. -/
theorem zero_run (cbs : List (EventCallback ℝ (Unit → ℝ))) (eventTol T : ℝ) (tEval : List ℝ)
    (hT : ((0 : ℝ) :: tEval).getLast? = some T) (jSpan fuel : ℕ) :
    odeintHybrid fuel (pureField zeroField) (fun _ => 0) (0 :: tEval) jSpan wSolver cbs (1 / 1000) (1 / 1000)
      eventTol false Finset.univ () =
    (hybridLoop (wCfg cbs eventTol) tEval T 0 jSpan fuel
      (hybridInit 0 (fun _ => 0) 0 (1 / 10 ^ 6))).map (Option.map (fun s => (s.evalTimes, s.sol))) := by
  have ho : wSolver.order = 5 := rfl
  have hz : zeroField 0 (fun _ => 0) = 0 := rfl
  rw [odeintHybrid_eq fuel zeroField _ 0 T tEval hT]
  simp only [initialJump, bind, Except.bind, pure, Except.pure, if_false, Bool.false_eq_true, ho, hz,
    zero_initStep]
  cases hybridLoop (wCfg cbs eventTol) tEval T 0 jSpan fuel (hybridInit 0 (fun _ => 0) 0 (1 / 10 ^ 6)) <;> rfl

theorem loop_step {cfg : HybridCfg (Except PyErr) ℝ (Unit → ℝ)} {tEval : List ℝ} {T : ℝ} {j jS fuel : ℕ}
    {s : HState ℝ (Unit → ℝ)} (s' : HState ℝ (Unit → ℝ)) (h : s.t < T) (hj : j < jS)
    (hit : hybridIter cfg tEval T s = .ok s') :
    hybridLoop cfg tEval T j jS (fuel + 1) s = hybridLoop cfg tEval T j jS fuel s' := by
  rw [hybridLoop, if_pos ⟨h, hj⟩, hit]
  rfl

theorem loop_stop {cfg : HybridCfg (Except PyErr) ℝ (Unit → ℝ)} {tEval : List ℝ} {T : ℝ} {j jS fuel : ℕ}
    {s : HState ℝ (Unit → ℝ)} (h : ¬ s.t < T) :
    hybridLoop cfg tEval T j jS (fuel + 1) s = .ok (some s) := by
  rw [hybridLoop, if_neg (fun hh => h hh.1)]
  rfl

/-! ### C37: a repeated time -/

/-- **C37 (refutation of strictness).** Without any callback: a checkpoint reached exactly makes the
next step have size zero, so its time is returned twice. -/
theorem C37_strict_refuted :
    odeintHybrid 4 (pureField zeroField) (fun _ => 0) [0, 1 / 10 ^ 6, 2 / 10 ^ 6] 1 wSolver []
      (1 / 1000) (1 / 1000) (1 / 10 ^ 4) false Finset.univ () =
      .ok (some ([0, 1 / 10 ^ 6, 1 / 10 ^ 6, 2 / 10 ^ 6],
        [fun _ => 0, fun _ => 0, fun _ => 0, fun _ => 0])) := by
  have hq : ∀ p, Quiet ([] : List (EventCallback ℝ (Unit → ℝ))) p := by intro p; simp [Quiet]
  rw [zero_run [] _ (2 / 10 ^ 6) [1 / 10 ^ 6, 2 / 10 ^ 6] rfl]
  rw [loop_step (zFlow _ (1 / 10 ^ 6, 1 / 10 ^ 6, false, 0)) (by norm_num [hybridInit]) (by norm_num)
    (zero_flow _ (by norm_num [hybridDt, hybridInit]) (Or.inr rfl) (hq _))]
  rw [loop_step (zFlow _ (0, 1 / 10 ^ 6, true, 1)) (by norm_num [hybridInit, zFlow]) (by norm_num)
    (zero_flow _ (by norm_num [hybridDt, hybridInit, zFlow]) (Or.inr rfl) (hq _))]
  rw [loop_step (zFlow _ (1 / 10 ^ 6, 1 / 10 ^ 6, false, 1)) (by norm_num [hybridInit, zFlow]) (by norm_num)
    (zero_flow _ (by norm_num [hybridDt, hybridInit, zFlow]) (Or.inr rfl) (hq _))]
  rw [loop_stop (by norm_num [hybridInit, zFlow])]
  norm_num [hybridInit, zFlow, Except.map]

/-! ### C34: more jumps than `j_span` -/

open Classical in
/-- Active while the state is below 2; the jump adds 1. -/
noncomputable def stairs : EventCallback ℝ (Unit → ℝ) :=
  ⟨fun _ x => decide (x () < 2), fun _ x => fun _ => x () + 1⟩

/-- **C34 (refutation).** With `j_span = 1` two jumps are applied: the field is zero, yet the state goes
from 0 to 2 by two jumps at `t = 0`. -/
theorem C34_two_jumps_refuted :
    odeintHybrid 4 (pureField zeroField) (fun _ => 0) [0, 1 / 10 ^ 6] 1 wSolver [stairs]
      (1 / 1000) (1 / 1000) (1 / 10 ^ 4) false Finset.univ () =
      .ok (some ([0, 0, 0, 0, 0, 1 / 10 ^ 6],
        [fun _ => 0, fun _ => 0, fun _ => 1, fun _ => 1, fun _ => 2, fun _ => 2])) := by
  rw [zero_run [stairs] _ (1 / 10 ^ 6) [1 / 10 ^ 6] rfl]
  have hact : ∀ t (x : Unit → ℝ), x () < 2 →
      (firstActive (eventStates [stairs] t x) : Except PyErr ℕ) = .ok 0 := by
    intro t x hr
    have : eventStates [stairs] t x = [true] := by simp [eventStates, stairs, hr]
    rw [this]
    rfl
  rw [loop_step (afterJump _ (1 / 10 ^ 6, 1 / 10 ^ 6, false, 0)
      (bisectStart _ (1 / 10 ^ 6) (eventStates [stairs] _ _)) stairs)
    (by norm_num [hybridInit]) (by norm_num)
    (zero_jump _ (by norm_num [hybridDt, hybridInit]) (Or.inr rfl)
      (by norm_num [Quiet, stairs, hybridInit]) _
      (zero_bisect_stop (by norm_num [bisectStart])) 0
      (by exact hact _ _ (by norm_num [hybridInit, afterJump, bisectStart, stairs])) stairs rfl)]
  rw [loop_step (afterJump _ (1 / 10 ^ 6, 1 / 10 ^ 6, false, 0)
      (bisectStart _ (1 / 10 ^ 6) (eventStates [stairs] _ _)) stairs)
    (by norm_num [hybridInit, afterJump, bisectStart]) (by norm_num)
    (zero_jump _ (by norm_num [hybridDt, hybridInit, afterJump, bisectStart]) (Or.inl rfl)
      (by norm_num [Quiet, stairs, hybridInit, afterJump, bisectStart]) _
      (zero_bisect_stop (by norm_num [bisectStart])) 0
      (by exact hact _ _ (by norm_num [hybridInit, afterJump, bisectStart, stairs])) stairs rfl)]
  rw [loop_step (zFlow _ (1 / 10 ^ 6, 1 / 10 ^ 6, false, 0))
    (by norm_num [hybridInit, afterJump, bisectStart]) (by norm_num)
    (zero_flow _ (by norm_num [hybridDt, hybridInit, afterJump, bisectStart]) (Or.inl rfl)
      (by norm_num [Quiet, stairs, hybridInit, afterJump, bisectStart]))]
  rw [loop_stop (by norm_num [hybridInit, zFlow, afterJump, bisectStart])]
  norm_num [hybridInit, zFlow, afterJump, bisectStart, stairs, Except.map]

/-! ### C35 and C36: overshooting the final time -/

open Classical in
/-- Active, while the state is below 1, between `0.9e-6` and `1.1e-6` and from `1.6e-6` on; the jump
adds 1. -/
noncomputable def blink : EventCallback ℝ (Unit → ℝ) :=
  ⟨fun t x => decide (x () < 1 ∧ ((9 / 10 ^ 7 ≤ t ∧ t < 11 / 10 ^ 7) ∨ 16 / 10 ^ 7 ≤ t)),
    fun _ x => fun _ => x () + 1⟩

theorem blink_run :
    odeintHybrid 2 (pureField zeroField) (fun _ => 0) [0, 1 / 10 ^ 6] 1 wSolver [blink]
      (1 / 1000) (1 / 1000) (3 / 10 ^ 7) false Finset.univ () =
      .ok (some ([0, 15 / 10 ^ 7, 15 / 10 ^ 7], [fun _ => 0, fun _ => 0, fun _ => 1])) := by
  rw [zero_run [blink] _ (1 / 10 ^ 6) [1 / 10 ^ 6] rfl]
  have hact : ∀ t (x : Unit → ℝ), ((9 / 10 ^ 7 ≤ t ∧ t < 11 / 10 ^ 7) ∨ 16 / 10 ^ 7 ≤ t) ∧ x () < 1 →
      triggeredEvents (eventStates [blink] t x) ≠ 0 := by
    intro t x ht
    rw [Ne, triggered_quiet]
    simp only [Quiet, blink, List.mem_singleton, forall_eq, decide_eq_false_iff_not, not_not]
    exact ⟨ht.2, ht.1⟩
  have hqu : ∀ t (x : Unit → ℝ), ¬ ((9 / 10 ^ 7 ≤ t ∧ t < 11 / 10 ^ 7) ∨ 16 / 10 ^ 7 ≤ t) →
      triggeredEvents (eventStates [blink] t x) = 0 := by
    intro t x ht
    rw [triggered_quiet]
    simp only [Quiet, blink, List.mem_singleton, forall_eq, decide_eq_false_iff_not]
    exact fun h => ht h.2
  have hb : bisect (wCfg [blink] (3 / 10 ^ 7)) (1 / 10 ^ 6) 100
      (bisectStart (hybridInit 0 (fun _ => 0) 0 (1 / 10 ^ 6)) (1 / 10 ^ 6)
        (eventStates [blink] (0 + 1 / 10 ^ 6) (fun _ => 0))) =
      .ok ⟨15 / 10 ^ 7, 25 / 10 ^ 8, fun _ => 0, some 0, [true]⟩ := by
    rw [zero_bisect (Or.inr rfl) (by norm_num [bisectStart]), if_pos (hqu _ _ (by norm_num [bisectStart, hybridInit]))]
    rw [zero_bisect (Or.inr rfl) (by norm_num), if_neg (hact _ _ (by norm_num [bisectStart, hybridInit]))]
    rw [zero_bisect (Or.inr rfl) (by norm_num), if_pos (hqu _ _ (by norm_num [bisectStart, hybridInit]))]
    rw [zero_bisect (Or.inr rfl) (by norm_num), if_pos (hqu _ _ (by norm_num [bisectStart, hybridInit]))]
    rw [zero_bisect (Or.inr rfl) (by norm_num), if_neg (hact _ _ (by norm_num [bisectStart, hybridInit]))]
    rw [zero_bisect (Or.inr rfl) (by norm_num), if_pos (hqu _ _ (by norm_num [bisectStart, hybridInit]))]
    rw [zero_bisect (Or.inr rfl) (by norm_num), if_neg (hact _ _ (by norm_num [bisectStart, hybridInit]))]
    rw [zero_bisect (Or.inr rfl) (by norm_num), if_neg (hact _ _ (by norm_num [bisectStart, hybridInit]))]
    rw [zero_bisect_stop (by norm_num)]
    norm_num [bisectStart, hybridInit, eventStates, blink]
  rw [loop_step (afterJump _ (1 / 10 ^ 6, 1 / 10 ^ 6, false, 0)
      ⟨15 / 10 ^ 7, 25 / 10 ^ 8, fun _ => 0, some 0, [true]⟩ blink)
    (by norm_num [hybridInit]) (by norm_num)
    (zero_jump _ (by norm_num [hybridDt, hybridInit]) (Or.inr rfl)
      (by norm_num [Quiet, blink, hybridInit]) _ hb 0 rfl blink rfl)]
  rw [loop_stop (by norm_num [hybridInit, afterJump])]
  norm_num [hybridInit, afterJump, blink, Except.map]

/-- **C35 (refutation).** There is a run that returns without visiting a point of `t_span`. -/
theorem C35_visits_refuted : ∃ ts xs,
    odeintHybrid 2 (pureField zeroField) (fun _ => 0) [0, 1 / 10 ^ 6] 1 wSolver [blink]
      (1 / 1000) (1 / 1000) (3 / 10 ^ 7) false Finset.univ () = .ok (some (ts, xs)) ∧
    (1 / 10 ^ 6 : ℝ) ∉ ts :=
  ⟨_, _, blink_run, by norm_num⟩

/-- **C36 (refutation).** There is a run whose times pass `t_span[-1]`: after a bisection step that
sees no event the bracket is reset to the full step size. -/
theorem C36_final_time_refuted : ∃ ts xs,
    odeintHybrid 2 (pureField zeroField) (fun _ => 0) [0, 1 / 10 ^ 6] 1 wSolver [blink]
      (1 / 1000) (1 / 1000) (3 / 10 ^ 7) false Finset.univ () = .ok (some (ts, xs)) ∧
    ∃ t ∈ ts, (1 / 10 ^ 6 : ℝ) < t :=
  ⟨_, _, blink_run, 15 / 10 ^ 7, by simp, by norm_num⟩

/-! ### Non-vacuity -/

/-- The hypotheses of `C33_trace` are met by a run with two jumps. -/
example : HybridTrace wSolver () zeroField Finset.univ (1 / 1000) (1 / 1000) [stairs] (0, fun _ => 0)
    [(0, fun _ => 0), (0, fun _ => 1), (0, fun _ => 1), (0, fun _ => 2), (1 / 10 ^ 6, fun _ => 2)] := by
  obtain ⟨_, x0, l, _, h, h'⟩ := C33_trace (dopri5_fsalSolver (ι := Unit) ()) zeroField (fun _ => 0) 0 _ 1 _ _ _ _ _
    _ _ _ _ C34_two_jumps_refuted
  simp only [List.zip_cons_cons, List.zip_nil_right, List.cons.injEq, Prod.mk.injEq] at h
  obtain ⟨⟨_, rfl⟩, rfl⟩ := h
  exact h'

/-- The hypotheses of `C37_no_events_partial` and `C35_visits_partial` are met by a run with an
intermediate checkpoint. -/
example : ∀ t ∈ ([0, 1 / 10 ^ 6, 2 / 10 ^ 6] : List ℝ), t ∈ ([0, 1 / 10 ^ 6, 1 / 10 ^ 6, 2 / 10 ^ 6] : List ℝ) := by
  refine C35_visits_partial (dopri5_fsalSolver (ι := Unit) ()) zeroField (fun _ => 0) 0 _ (by norm_num) 1 le_rfl []
    (by intro p; simp [Quiet]) _ _ _ _ ?_ _ _ _ _ C37_strict_refuted
  intro x t dt k x' e st h
  have h0 : e = 0 := by cases h; simp [zeroField]
  subst h0
  simp [errorNorm]

/-- Constant unit speed. -/
def unitSpeed : ℝ → (Unit → ℝ) → (Unit → ℝ) := fun _ _ => fun _ => 1

open Classical in
/-- A ramp that is reset to 0 when it reaches 1. -/
noncomputable def sawtooth : EventCallback ℝ (Unit → ℝ) :=
  ⟨fun _ x => decide (1 ≤ x ()), fun _ _ => fun _ => 0⟩

/-- The hypothesis of `C36_times_partial` holds of the sawtooth oscillator `x' = 1`, reset at 1. -/
example : Persistent wSolver () unitSpeed [sawtooth] := by
  have hstep : ∀ p q : Point Unit, AnyStep wSolver () unitSpeed p q → q.2 () = p.2 () + (q.1 - p.1) := by
    rintro p q ⟨k, e, st, h⟩
    obtain ⟨pt, px⟩ := p
    obtain ⟨qt, qx⟩ := q
    simp only at h
    generalize qt - pt = d at h ⊢
    cases h
    have hb : (constructDopri5 ℝ).bsol = [35 / 384, 0, 500 / 1113, 125 / 192, -2187 / 6784, 11 / 84, 0] := rfl
    simp [unitSpeed, hb, nth]
    ring
  have hreach : ∀ p q : Point Unit,
      Relation.ReflTransGen (fun p q => p.1 ≤ q.1 ∧ AnyStep wSolver () unitSpeed p q) p q →
      q.2 () = p.2 () + (q.1 - p.1) := by
    intro p q h
    induction h with
    | refl => ring
    | tail _ h ih => rw [hstep _ _ h.2, ih]; ring
  intro p q r hq hr hle hnq
  have h1 := hreach p q hq
  have h2 := hreach p r hr
  simp only [Quiet, sawtooth, List.mem_singleton, forall_eq, decide_eq_false_iff_not, not_not] at hnq ⊢
  linarith

end Torchdyn
