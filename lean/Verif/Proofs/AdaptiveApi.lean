import Verif.Proofs.AdaptiveOdeint
import Verif.Model.Api
import Verif.Spec.Adaptive
import Verif.Props.OneStep

/-! Lemmas connecting `odeint` with the adaptive loop. -/

set_option linter.unusedSectionVars false
set_option linter.unusedSimpArgs false

namespace Torchdyn

open Spec

variable {ι A : Type}

theorem errorRatio_eq (sel : Finset ι) (atol rtol : ℝ) (x x' e : ι → ℝ) :
    errorRatio sel atol rtol x x' e = errorNorm sel atol rtol x x' e := by
  simp only [errorRatio, errorNorm, hairerNormOn, errorScaled, sq_abs]

theorem hairerNormOn_nonneg (s : Finset ι) (x : ι → ℝ) : 0 ≤ hairerNormOn s x := Real.sqrt_nonneg _

theorem initTrial_pos (d0 d1 : ℝ) : 0 < initTrial d0 d1 := by
  unfold initTrial
  split_ifs with h
  · norm_num
  · rw [not_or, not_lt, not_lt] at h
    have h0 : 0 < d0 := lt_of_lt_of_le (by norm_num) h.1
    have h1 : 0 < d1 := lt_of_lt_of_le (by norm_num) h.2
    positivity

theorem initSecond_pos (d1 d2 h0 : ℝ) (order : ℕ) : 0 < initSecond d1 d2 h0 order := by
  unfold initSecond
  split_ifs with h
  · exact lt_of_lt_of_le (by norm_num) (le_max_left _ _)
  · apply Real.rpow_pos_of_pos
    have : 0 < max d1 d2 := by
      rw [not_and_or, not_le, not_le] at h
      rcases h with h | h
      · exact lt_of_lt_of_le (lt_trans (by norm_num) h) (le_max_left _ _)
      · exact lt_of_lt_of_le (lt_trans (by norm_num) h) (le_max_right _ _)
    positivity

theorem initStep_pos [Fintype ι] (f : ℝ → (ι → ℝ) → (ι → ℝ)) (f0 x0 : ι → ℝ) (t0 : ℝ)
    (order : ℕ) (atol rtol : ℝ) :
    ∃ dt, 0 < dt ∧ initStep (m := Except PyErr) (pureField f) f0 x0 t0 order atol rtol = .ok dt := by
  refine ⟨_, ?_, rfl⟩
  exact lt_min (mul_pos (by norm_num) (initTrial_pos _ _)) (initSecond_pos _ _ _ _)

theorem adaptStep_pos {dt er safety minF maxF : ℝ} {order : ℕ} (hdt : 0 < dt)
    (h2 : 0 < minF) (h3 : 0 < maxF) : 0 < adaptStep dt er safety minF maxF order := by
  unfold adaptStep
  split_ifs
  · exact mul_pos hdt h3
  · exact mul_pos hdt (lt_min h3 (lt_max_of_lt_right one_pos))
  · exact mul_pos hdt (lt_min h3 (lt_max_of_lt_right h2))

/-- The interpolator used by `odeint`. -/
noncomputable def odeintInterp (solver : Solver (Except PyErr) ℝ (ι → ℝ) A) (useInterp : Bool) :
    Option (ℝ → ℝ → (ι → ℝ) → (ι → ℝ) → (ι → ℝ) → (ι → ℝ) → List (ι → ℝ) → ℝ → (ι → ℝ)) :=
  if (if solver.isTsit5 then false else useInterp) then some (fourthOrderDense (construct4th ℝ))
  else none

theorem odeint_forward [Fintype ι] (fuel : ℕ) (f : ℝ → (ι → ℝ) → (ι → ℝ)) (x : ι → ℝ)
    {t0 t1 : ℝ} (rest : List ℝ) (solver : Solver (Except PyErr) ℝ (ι → ℝ) A)
    (hadp : solver.adaptive = true) (atol rtol : ℝ) (ui rae : Bool) (saveAt : List ℝ) (args : A)
    (sel : Finset ι) (hdir : t0 ≤ t1) :
    ∃ dt, 0 < dt ∧
      initStep (m := Except PyErr) (pureField f) (f t0 x) x t0 solver.order atol rtol = .ok dt ∧
      odeint fuel (pureField f) x (t0 :: t1 :: rest) solver atol rtol ui rae saveAt args sel =
      adaptiveOdeint (odeintCfg (pureField f) solver args atol rtol sel (odeintInterp solver ui) rae)
        fuel (f t0 x) x dt (t0 :: t1 :: rest) := by
  obtain ⟨dt, hdt, hi⟩ := initStep_pos f (f t0 x) x t0 solver.order atol rtol
  refine ⟨dt, hdt, hi, ?_⟩
  have hk : pureField (m := Except PyErr) f t0 x = .ok (f t0 x) := rfl
  simp only [odeint, odeintDirection, getItem, List.getElem?_cons_succ,
    List.getElem?_cons_zero, pure_bind, if_neg (not_lt.2 hdir), hadp, if_true, hk]
  simp only [bind, Except.bind, hi]
  rfl

theorem odeint_backward_dt [Fintype ι] (f : ℝ → (ι → ℝ) → (ι → ℝ)) (x : ι → ℝ)
    {t0 t1 : ℝ} (rest : List ℝ) (solver : Solver (Except PyErr) ℝ (ι → ℝ) A)
    (hadp : solver.adaptive = true) (atol rtol : ℝ) (ui rae : Bool) (saveAt : List ℝ) (args : A)
    (sel : Finset ι) (hdir : t1 < t0) :
    ∃ dt, 0 < dt ∧ ∀ fuel,
      odeint fuel (pureField f) x (t0 :: t1 :: rest) solver atol rtol ui rae saveAt args sel =
      adaptiveOdeint (odeintCfg (pureField (fun t x => -f (-t) x)) solver args atol rtol sel
        (odeintInterp solver ui) rae)
        fuel (-f (-(-t0)) x) x dt ((t0 :: t1 :: rest).map (fun t => -t)) := by
  obtain ⟨dt, hdt, hi⟩ := initStep_pos f (-f (-(-t0)) x) x (-t0) solver.order atol rtol
  refine ⟨dt, hdt, fun fuel => ?_⟩
  have hk : reverseField (pureField (m := Except PyErr) f) (-t0) x = .ok (-f (-(-t0)) x) := rfl
  simp only [odeint, odeintDirection, getItem, List.getElem?_cons_succ, List.map_cons,
    List.getElem?_cons_zero, pure_bind, if_pos hdir, hadp, if_true, hk]
  simp only [bind, Except.bind, hi]
  rfl

theorem odeint_backward [Fintype ι] (fuel : ℕ) (f : ℝ → (ι → ℝ) → (ι → ℝ)) (x : ι → ℝ)
    {t0 t1 : ℝ} (rest : List ℝ) (solver : Solver (Except PyErr) ℝ (ι → ℝ) A)
    (hadp : solver.adaptive = true) (atol rtol : ℝ) (ui rae : Bool) (saveAt : List ℝ) (args : A)
    (sel : Finset ι) (hdir : t1 < t0) :
    ∃ dt, 0 < dt ∧
      odeint fuel (pureField f) x (t0 :: t1 :: rest) solver atol rtol ui rae saveAt args sel =
      adaptiveOdeint (odeintCfg (pureField (fun t x => -f (-t) x)) solver args atol rtol sel
        (odeintInterp solver ui) rae)
        fuel (-f (-(-t0)) x) x dt ((t0 :: t1 :: rest).map (fun t => -t)) := by
  obtain ⟨dt, hdt, h⟩ := odeint_backward_dt f x rest solver hadp atol rtol ui rae saveAt args sel hdir
  exact ⟨dt, hdt, h fuel⟩

/-- The four results of a step of a solver as a total function. -/
theorem _root_.Spec.FsalSolver.out {solver : Solver (Except PyErr) ℝ (ι → ℝ) A} {args : A}
    (hs : FsalSolver solver args) (f : ℝ → (ι → ℝ) → (ι → ℝ)) (atol rtol : ℝ) (sel : Finset ι)
    (interp) (rae : Bool) :
    ∃ out : (ι → ℝ) → ℝ → ℝ → (ι → ℝ) → (ι → ℝ) × (ι → ℝ) × (ι → ℝ) × List (ι → ℝ),
      FourStep (odeintCfg (pureField f) solver args atol rtol sel interp rae) out ∧
      (∀ x t dt k1, (out x t dt k1).1 = f (t + dt) (out x t dt k1).2.1) ∧
      (∀ x t dt, solver.step (fun t x => .ok (f t x)) x t dt none args =
        .ok (.four (out x t dt (f t x)).1 (out x t dt (f t x)).2.1 (out x t dt (f t x)).2.2.1
          (out x t dt (f t x)).2.2.2)) ∧
      (∀ dt er, 0 < dt →
        0 < (odeintCfg (pureField f) solver args atol rtol sel interp rae).adapt dt er) := by
  choose k x' e st h using hs.step_ok
  refine ⟨fun x t dt k1 => (k f x t dt (some k1), x' f x t dt (some k1), e f x t dt (some k1),
    st f x t dt (some k1)), ?_, ?_, ?_, ?_⟩
  · intro x t dt k1
    exact h f x t dt (some k1)
  · intro x t dt k1
    exact hs.fsal f x t dt (some k1) _ _ _ _ (h f x t dt (some k1))
  · intro x t dt
    rw [← hs.first_stage]
    exact h f x t dt _
  · intro dt er hdt
    exact adaptStep_pos hdt hs.min_pos hs.max_pos

theorem rk7_four (tab : Tableau ℝ) (f : ℝ → (ι → ℝ) → (ι → ℝ)) (x : ι → ℝ) (t dt : ℝ)
    (k1 : Option (ι → ℝ)) (args : A) : ∃ k x' e st,
    rk7Step (m := Except PyErr) tab (pureField f) x t dt k1 args = .ok (.four k x' e st) ∧
    rk7Step (m := Id) tab (pureField f) x t dt k1 args = .four k x' e st := by
  cases k1 <;> exact ⟨_, _, _, _, rfl, rfl⟩

theorem dopri5_fsalSolver (args : A) : FsalSolver (dopri5Solver (Except PyErr) ℝ (ι → ℝ) A) args where
  adaptive := rfl
  safety_pos := by norm_num [dopri5Solver]
  min_pos := by norm_num [dopri5Solver]
  max_pos := by norm_num [dopri5Solver]
  step_ok f x t dt k1 := by
    obtain ⟨k, x', e, st, h, -⟩ := rk7_four (constructDopri5 ℝ) f x t dt k1 args
    exact ⟨k, x', e, st, h⟩
  first_stage f x t dt := rfl
  fsal f x t dt k1 k x' e st h := by
    obtain ⟨k', x'', e', st', h1, h2⟩ := rk7_four (constructDopri5 ℝ) f x t dt k1 args
    have h3 := C02_dopri5_fsal f x t dt k1 args
    have h4 : dopri5Step (m := Id) (pureField f) x t dt k1 args = .four k' x'' e' st' := h2
    simp only [h4, StepOut.deriv, StepOut.newState, Option.some.injEq] at h3
    have h5 : (Except.ok (.four k' x'' e' st') : Except PyErr (StepOut (ι → ℝ))) =
      .ok (.four k x' e st) := by rw [← h1]; exact h
    cases h5
    exact h3

theorem tsit5_fsalSolver (args : A) : FsalSolver (tsit5Solver (Except PyErr) ℝ (ι → ℝ) A) args where
  adaptive := rfl
  safety_pos := by norm_num [tsit5Solver]
  min_pos := by norm_num [tsit5Solver]
  max_pos := by norm_num [tsit5Solver]
  step_ok f x t dt k1 := by
    obtain ⟨k, x', e, st, h, -⟩ := rk7_four (constructTsit5 ℝ) f x t dt k1 args
    exact ⟨k, x', e, st, h⟩
  first_stage f x t dt := rfl
  fsal f x t dt k1 k x' e st h := by
    obtain ⟨k', x'', e', st', h1, h2⟩ := rk7_four (constructTsit5 ℝ) f x t dt k1 args
    have h3 := C02_tsit5_fsal f x t dt k1 args
    have h4 : tsit5Step (m := Id) (pureField f) x t dt k1 args = .four k' x'' e' st' := h2
    simp only [h4, StepOut.deriv, StepOut.newState, Option.some.injEq] at h3
    have h5 : (Except.ok (.four k' x'' e' st') : Except PyErr (StepOut (ι → ℝ))) =
      .ok (.four k x' e st) := by rw [← h1]; exact h
    cases h5
    exact h3

/-! ### Outputs as points -/

/-- The recorded outputs as points. -/
def outs (s : AState ℝ (ι → ℝ)) : List (Point ι) := s.evalTimes.zip s.sol

/-- The recorded outputs, without interpolator: every output is reached from the previous one, and
the current point from the last output; with `return_all_eval` the outputs are the accepted steps. -/
structure PointsInv (Acc : Point ι → Point ι → Prop) (f : ℝ → (ι → ℝ) → (ι → ℝ)) (all : Bool)
    (s : AState ℝ (ι → ℝ)) : Prop where
  k1 : s.k1 = f s.t s.x
  len : s.sol.length = s.evalTimes.length
  chain : (outs s ++ [(s.t, s.x)]).IsChain (Relation.ReflTransGen Acc)
  all_chain : all = true → (outs s).IsChain Acc ∧ (outs s).getLast? = some (s.t, s.x)

theorem pointsInv_step {solver : Solver (Except PyErr) ℝ (ι → ℝ) A} {args : A}
    (f : ℝ → (ι → ℝ) → (ι → ℝ)) {atol rtol : ℝ} {sel : Finset ι} {rae : Bool}
    {out : (ι → ℝ) → ℝ → ℝ → (ι → ℝ) → (ι → ℝ) × (ι → ℝ) × (ι → ℝ) × List (ι → ℝ)}
    (ho2 : ∀ x t dt k1, (out x t dt k1).1 = f (t + dt) (out x t dt k1).2.1)
    (ho3 : ∀ x t dt, solver.step (fun t x => .ok (f t x)) x t dt none args =
        .ok (.four (out x t dt (f t x)).1 (out x t dt (f t x)).2.1 (out x t dt (f t x)).2.2.1
          (out x t dt (f t x)).2.2.2))
    {tEval : List ℝ} {T : ℝ} {s s' : AState ℝ (ι → ℝ)} {dt : ℝ}
    (hpassed : passed tEval s.ckpt (s.t + dt) = [])
    (h : PointsInv (AcceptedStep solver args f sel atol rtol) f rae s)
    (hit : IterSpec (odeintCfg (pureField f) solver args atol rtol sel none rae) out tEval T s s' dt) :
    PointsInv (AcceptedStep solver args f sel atol rtol) f rae s' := by
  by_cases hacc : (odeintCfg (pureField f) solver args atol rtol sel none rae).errRatio s.x
      (out s.x s.t dt s.k1).2.1 (out s.x s.t dt s.k1).2.2.1 ≤ 1
  · obtain ⟨ht, hx, hk, _, het, mids, hm1, _, hsol⟩ := hit.accepted hacc
    rw [hpassed, List.length_nil, List.length_eq_zero_iff] at hm1
    rw [hpassed, List.append_nil] at het
    rw [hm1, List.append_nil] at hsol
    have hAcc : AcceptedStep solver args f sel atol rtol (s.t, s.x) (s'.t, s'.x) := by
      refine ⟨by rw [ht]; have := hit.dt_pos; simp only; linarith, ?_⟩
      have e : s'.t - s.t = dt := by rw [ht]; ring
      simp only [e]
      refine ⟨(out s.x s.t dt (f s.t s.x)).1, (out s.x s.t dt (f s.t s.x)).2.2.1,
        (out s.x s.t dt (f s.t s.x)).2.2.2, ?_, ?_⟩
      · rw [ho3, hx, h.k1]
      · rw [← errorRatio_eq, hx, h.k1]
        rw [h.k1] at hacc
        exact hacc
    have hlen' : s'.sol.length = s'.evalTimes.length := by
      rw [hsol, het]
      simp only [List.length_append, h.len]
      congr 1
      split_ifs <;> rfl
    have houts : outs s' = outs s ++
        (if s.t + dt ∈ tEval ∨ rae = true then [(s'.t, s'.x)] else []) := by
      rw [outs, het, hsol, List.zip_append h.len.symm, outs]
      congr 1
      have : (odeintCfg (pureField f) solver args atol rtol sel none rae).returnAllEval = rae := rfl
      rw [this]
      split_ifs
      · rw [ht, hx]; rfl
      · rfl
    have hch : (outs s ++ [(s'.t, s'.x)]).IsChain
        (Relation.ReflTransGen (AcceptedStep solver args f sel atol rtol)) := by
      have hc := h.chain
      rw [List.isChain_append] at hc ⊢
      refine ⟨hc.1, by simp, ?_⟩
      intro a ha b hb
      simp only [List.head?_cons, Option.mem_def, Option.some.injEq] at hb
      subst hb
      exact (hc.2.2 a ha (s.t, s.x) rfl).tail hAcc
    refine ⟨?_, hlen', ?_, ?_⟩
    · rw [hk, ho2, ht, hx]
    · rw [houts]
      split_ifs
      · rw [List.isChain_append]
        refine ⟨hch, by simp, ?_⟩
        intro a ha b hb
        simp only [List.head?_cons, Option.mem_def, Option.some.injEq] at hb
        rw [List.getLast?_append] at ha
        simp at ha
        rw [← ha, ← hb]
      · rwa [List.append_nil]
    · intro hr
      obtain ⟨h1, h2⟩ := h.all_chain hr
      rw [houts, if_pos (Or.inr hr)]
      refine ⟨?_, by simp⟩
      rw [List.isChain_append]
      refine ⟨h1, by simp, ?_⟩
      intro a ha b hb
      simp only [List.head?_cons, Option.mem_def, Option.some.injEq] at hb
      rw [h2] at ha
      simp at ha
      rw [← ha, ← hb]
      exact hAcc
  · obtain ⟨ht, hx, hk, _, het, hsol⟩ := hit.rejected hacc
    have e : outs s' = outs s := by rw [outs, het, hsol, outs]
    exact ⟨by rw [hk, ht, hx]; exact h.k1, by rw [hsol, het]; exact h.len,
      by rw [e, ht, hx]; exact h.chain, by rw [e, ht, hx]; exact h.all_chain⟩

/-- Without interpolator no checkpoint is passed. -/
theorem passed_nil {cfg : AdaptiveCfg (Except PyErr) ℝ (ι → ℝ)}
    {out : (ι → ℝ) → ℝ → ℝ → (ι → ℝ) → (ι → ℝ) × (ι → ℝ) × (ι → ℝ) × List (ι → ℝ)}
    {tEval : List ℝ} {T : ℝ} {s s' : AState ℝ (ι → ℝ)} {dt : ℝ} (hi : cfg.interp = none)
    (hit : IterSpec cfg out tEval T s s' dt) : passed tEval s.ckpt (s.t + dt) = [] := by
  have h := hit.le_next hi
  unfold passed
  cases hd : tEval.drop s.ckpt with
  | nil => rfl
  | cons a l =>
    rw [hd] at h
    rw [List.takeWhile_cons, if_neg]
    simpa using h a (by simp)

/-- `p` is the dense output of the step between two consecutive `nodes`. -/
def Interpolated (solver : Solver (Except PyErr) ℝ (ι → ℝ) A) (args : A)
    (f : ℝ → (ι → ℝ) → (ι → ℝ))
    (interp : Option (ℝ → ℝ → (ι → ℝ) → (ι → ℝ) → (ι → ℝ) → (ι → ℝ) → List (ι → ℝ) → ℝ → (ι → ℝ)))
    (nodes : List (Point ι)) (p : Point ι) : Prop :=
  ∃ dense, interp = some dense ∧ ∃ a b, [a, b] <:+: nodes ∧ ∃ k e st, a.1 < p.1 ∧ p.1 < b.1 ∧
    solver.step (fun t x => .ok (f t x)) a.2 a.1 (b.1 - a.1) none args = .ok (.four k b.2 e st) ∧
    p.2 = dense a.1 (b.1 - a.1) (f a.1 a.2) k a.2 b.2 st p.1

theorem Interpolated.mono {solver : Solver (Except PyErr) ℝ (ι → ℝ) A} {args : A}
    {f : ℝ → (ι → ℝ) → (ι → ℝ)} {interp} {l l' : List (Point ι)} {p : Point ι}
    (h : Interpolated solver args f interp l p) (hs : l <:+: l') :
    Interpolated solver args f interp l' p := by
  obtain ⟨d, hd, a, b, hab, r⟩ := h
  exact ⟨d, hd, a, b, hab.trans hs, r⟩

/-- With interpolator: some of the outputs form the chain of accepted steps, the others are
interpolated at requested times. -/
structure NodesInv (Acc : Point ι → Point ι → Prop) (Dense : List (Point ι) → Point ι → Prop)
    (f : ℝ → (ι → ℝ) → (ι → ℝ)) (all : Bool) (tEval : List ℝ) (p0 : Point ι) (s : AState ℝ (ι → ℝ)) (nodes : List (Point ι)) : Prop where
  k1 : s.k1 = f s.t s.x
  len : s.sol.length = s.evalTimes.length
  chain : nodes.IsChain Acc
  head : nodes.head? = some p0
  last : nodes.getLast? = some (s.t, s.x)
  all_sub : all = true → nodes.Sublist (outs s)
  rest : ∀ p ∈ outs s, p ∈ nodes ∨ (p.1 ∈ tEval ∧ Dense nodes p)
  ends : s.t ∈ tEval → (outs s).getLast? = some (s.t, s.x)

theorem nodesInv_step {solver : Solver (Except PyErr) ℝ (ι → ℝ) A} {args : A}
    (f : ℝ → (ι → ℝ) → (ι → ℝ)) {atol rtol : ℝ} {sel : Finset ι} {rae : Bool} {interp}
    {out : (ι → ℝ) → ℝ → ℝ → (ι → ℝ) → (ι → ℝ) × (ι → ℝ) × (ι → ℝ) × List (ι → ℝ)}
    (ho2 : ∀ x t dt k1, (out x t dt k1).1 = f (t + dt) (out x t dt k1).2.1)
    (ho3 : ∀ x t dt, solver.step (fun t x => .ok (f t x)) x t dt none args =
        .ok (.four (out x t dt (f t x)).1 (out x t dt (f t x)).2.1 (out x t dt (f t x)).2.2.1
          (out x t dt (f t x)).2.2.2))
    {tEval : List ℝ} {t0 T : ℝ} {s s' : AState ℝ (ι → ℝ)} {dt : ℝ} {p0 : Point ι}
    {nodes : List (Point ι)} (hinv : AInv tEval t0 T s) (hsort : tEval.Pairwise (· < ·))
    (h : NodesInv (AcceptedStep solver args f sel atol rtol) (Interpolated solver args f interp) f rae
      tEval p0 s nodes)
    (hit : IterSpec (odeintCfg (pureField f) solver args atol rtol sel interp rae) out tEval T s s' dt) :
    ∃ nodes', NodesInv (AcceptedStep solver args f sel atol rtol) (Interpolated solver args f interp)
      f rae tEval p0 s' nodes' := by
  by_cases hacc : (odeintCfg (pureField f) solver args atol rtol sel interp rae).errRatio s.x
      (out s.x s.t dt s.k1).2.1 (out s.x s.t dt s.k1).2.2.1 ≤ 1
  · obtain ⟨ht, hx, hk, _, het, mids, hm1, hm2, hsol⟩ := hit.accepted hacc
    have hAcc : AcceptedStep solver args f sel atol rtol (s.t, s.x) (s'.t, s'.x) := by
      refine ⟨by rw [ht]; have := hit.dt_pos; simp only; linarith, ?_⟩
      have e : s'.t - s.t = dt := by rw [ht]; ring
      simp only [e]
      refine ⟨(out s.x s.t dt (f s.t s.x)).1, (out s.x s.t dt (f s.t s.x)).2.2.1,
        (out s.x s.t dt (f s.t s.x)).2.2.2, ?_, ?_⟩
      · rw [ho3, hx, h.k1]
      · rw [← errorRatio_eq, hx, h.k1]
        rw [h.k1] at hacc
        exact hacc
    have houts : outs s' = outs s ++ (passed tEval s.ckpt (s.t + dt)).zip mids ++
        (if s.t + dt ∈ tEval ∨ rae = true then [(s'.t, s'.x)] else []) := by
      rw [outs, het, hsol, List.zip_append (by simp [hm1, h.len]), List.zip_append h.len.symm, outs]
      congr 1
      have : (odeintCfg (pureField f) solver args atol rtol sel interp rae).returnAllEval = rae := rfl
      rw [this]
      split_ifs
      · rw [ht, hx]; rfl
      · rfl
    refine ⟨nodes ++ [(s'.t, s'.x)], ⟨?_, ?_, ?_, ?_, ?_, ?_, ?_, ?_⟩⟩
    · rw [hk, ho2, ht, hx]
    · rw [hsol, het]
      simp only [List.length_append, h.len, hm1]
      congr 1
      split_ifs <;> rfl
    · rw [List.isChain_append]
      refine ⟨h.chain, by simp, ?_⟩
      intro a ha b hb
      simp only [List.head?_cons, Option.mem_def, Option.some.injEq] at hb
      rw [h.last] at ha
      simp at ha
      rw [← ha, ← hb]
      exact hAcc
    · rw [List.head?_append, h.head]; rfl
    · simp
    · intro hr
      rw [houts, if_pos (Or.inr hr)]
      exact List.Sublist.append ((h.all_sub hr).trans (List.sublist_append_left _ _))
        (List.Sublist.refl _)
    · intro p hp
      rw [houts, List.mem_append, List.mem_append] at hp
      rcases hp with (hp | hp) | hp
      · rcases h.rest p hp with hp | hp
        · exact Or.inl (List.mem_append_left _ hp)
        · exact Or.inr ⟨hp.1, hp.2.mono (List.prefix_append _ _).isInfix⟩
      · right
        have hpm := (List.of_mem_zip hp).1
        have hpd := (List.takeWhile_prefix _).subset hpm
        refine ⟨List.mem_of_mem_drop hpd, ?_⟩
        have hlt := (takeWhile_lt_append_dropWhile _ _
          (hsort.sublist (List.drop_sublist s.ckpt _))).1 p.1 hpm
        cases hi : interp with
        | none =>
          have : passed tEval s.ckpt (s.t + dt) = [] := passed_nil (by rw [odeintCfg, hi]) hit
          rw [this] at hpm
          cases hpm
        | some dense =>
          have hcons : [(s.t, s.x), (s'.t, s'.x)] <:+: nodes ++ [(s'.t, s'.x)] := by
            obtain ⟨l, hl⟩ := List.getLast?_eq_some_iff.1 h.last
            rw [hl, List.append_assoc]
            exact (List.suffix_append _ _).isInfix
          refine ⟨dense, rfl, (s.t, s.x), (s'.t, s'.x), hcons, (out s.x s.t dt (f s.t s.x)).1,
            (out s.x s.t dt (f s.t s.x)).2.2.1, (out s.x s.t dt (f s.t s.x)).2.2.2, ?_, ?_, ?_, ?_⟩
          · exact hinv.future _ hpd
          · rw [ht]; exact hlt
          · simp only [ht, add_sub_cancel_left]
            rw [ho3, hx, h.k1]
          · have hm := hm2 dense (by rw [odeintCfg, hi])
            rw [hm, List.zip_map_right] at hp
            obtain ⟨q, hq, rfl⟩ := List.mem_map.1 hp
            have hqq : q.1 = q.2 := by
              obtain ⟨i, hi, he⟩ := List.getElem_of_mem hq
              rw [List.getElem_zip] at he
              rw [← he]
            simp only [ht, add_sub_cancel_left, hx, h.k1, Prod.map_snd, Prod.map_fst, id, hqq]
      · left
        split_ifs at hp
        · exact List.mem_append_right _ hp
        · simp at hp
    · intro hmem
      rw [houts, if_pos (Or.inl (ht ▸ hmem))]
      simp
  · obtain ⟨ht, hx, hk, _, het, hsol⟩ := hit.rejected hacc
    have e : outs s' = outs s := by rw [outs, het, hsol, outs]
    exact ⟨nodes, ⟨by rw [hk, ht, hx]; exact h.k1, by rw [hsol, het]; exact h.len, h.chain, h.head,
      by rw [ht, hx]; exact h.last, by rw [e]; exact h.all_sub, by rw [e]; exact h.rest,
      by rw [e, ht, hx]; exact h.ends⟩⟩

/-! ### The attempted step size -/

theorem attempt_spec {K V : Type} [Field K] [LinearOrder K] [IsStrictOrderedRing K]
    {tEval : List K} {t0 T : K} {s : AState K V} (b : Bool)
    (hsort : tEval.Pairwise (· < ·)) (hT : tEval.getLast? = some T) (hinv : AInv tEval t0 T s)
    (ht : s.t < T) :
    0 < (checkpointDt b tEval s (clampDt T s)).1 ∧
    s.t + (checkpointDt b tEval s (clampDt T s)).1 ≤ T ∧
    (b = false → ∀ te ∈ tEval.drop s.ckpt, s.t + (checkpointDt b tEval s (clampDt T s)).1 ≤ te) := by
  obtain ⟨h1, h2, h3⟩ := clampDt_spec (K := K) hinv.dt_pos ht
  cases b with
  | true =>
    rw [checkpointDt_some hinv.flag]
    exact ⟨h1, h2, by simp⟩
  | false =>
    have hne : ∃ te l, tEval.drop s.ckpt = te :: l := by
      cases hd : tEval.drop s.ckpt with
      | cons te l => exact ⟨te, l, rfl⟩
      | nil =>
        exfalso
        have : tEval.take s.ckpt = tEval := by
          rw [List.drop_eq_nil_iff] at hd
          exact List.take_of_length_le hd
        have hp := hinv.past T (by rw [this]; exact List.mem_of_getLast? hT)
        exact absurd ht (not_lt.2 hp)
    obtain ⟨te, l, hd⟩ := hne
    have hte : s.t < te := hinv.future te (by rw [hd]; simp)
    obtain ⟨dt, dtOld, flag, h, h4, h5, h6, _⟩ := checkpointDt_none hinv.flag h1 hd hte
    rw [h]
    refine ⟨h4, by simp only; linarith, fun _ => ?_⟩
    intro a ha
    rw [hd] at ha
    have hs : (te :: l).Pairwise (· < ·) := hd ▸ hsort.sublist (List.drop_sublist _ _)
    rcases List.mem_cons.1 ha with rfl | ha
    · exact h5
    · exact h5.trans ((List.pairwise_cons.1 hs).1 a ha).le

/-- Replacing the stepper by one that agrees on the calls that are made. -/
theorem adaptiveOdeint_congr_step {K V : Type} [Field K] [LinearOrder K] [IsStrictOrderedRing K]
    {cfg : AdaptiveCfg (Except PyErr) K V}
    {out : V → K → K → V → V × V × V × List V} (hout : FourStep cfg out)
    (hadapt : ∀ dt er, 0 < dt → 0 < cfg.adapt dt er) {t0 t1 dt T : K} {rest : List K}
    (hsort : (t0 :: t1 :: rest).Pairwise (· < ·)) (hdt : 0 < dt) (k1 x : V)
    (hT : (t1 :: rest).getLast? = some T) (step' : V → K → K → V → Except PyErr (StepOut V))
    (hstep : ∀ x t dt k1, 0 < dt → t0 ≤ t → t + dt ≤ T →
      (cfg.interp = none → ∀ te ∈ t0 :: t1 :: rest, te ≤ t ∨ t + dt ≤ te) →
      step' x t dt k1 = cfg.step x t dt k1) (fuel : Nat) :
    adaptiveOdeint { cfg with step := step' } fuel k1 x dt (t0 :: t1 :: rest) =
      adaptiveOdeint cfg fuel k1 x dt (t0 :: t1 :: rest) := by
  have hs1 := (List.pairwise_cons.1 hsort).2
  have hloop : ∀ fuel (s : AState K V), AInv (t1 :: rest) t0 T s →
      adaptiveLoop { cfg with step := step' } (t1 :: rest) T fuel s =
        adaptiveLoop cfg (t1 :: rest) T fuel s := by
    intro fuel
    induction fuel with
    | zero => intro s _; rfl
    | succ fuel ih =>
      intro s hinv
      by_cases ht : s.t < T
      · obtain ⟨dt, s', h1, h2, h3, _⟩ := adaptiveIter_spec hout hadapt hs1 hT hinv ht
        have hiter : adaptiveIter { cfg with step := step' } (t1 :: rest) T s =
            adaptiveIter cfg (t1 :: rest) T s := by
          obtain ⟨g1, g2, g3⟩ := attempt_spec cfg.interp.isSome hs1 hT hinv ht
          have e := hstep s.x s.t (checkpointDt cfg.interp.isSome (t1 :: rest) s (clampDt T s)).1 s.k1
            g1 hinv.ge0 g2 ?_
          · simp only [adaptiveIter]
            rw [e]
            rfl
          · intro hi te hte
            rcases List.mem_cons.1 hte with rfl | hte
            · exact Or.inl hinv.ge0
            rw [← List.take_append_drop s.ckpt (t1 :: rest), List.mem_append] at hte
            rcases hte with hte | hte
            · exact Or.inl (hinv.past te hte)
            · exact Or.inr (g3 (by rw [hi]; rfl) te hte)
        rw [adaptiveLoop, adaptiveLoop, if_pos ht, if_pos ht, hiter, h1]
        exact ih s' h3
      · rw [adaptiveLoop, adaptiveLoop, if_neg ht, if_neg ht]
  have hgT : (t0 :: t1 :: rest)[(t0 :: t1 :: rest).length - 1]? = some T := by
    rw [← List.getLast?_eq_getElem?, getLast?_cons_cons, hT]
  have g0 : (getItem (t0 :: t1 :: rest) 0 : Except PyErr K) = .ok t0 := rfl
  have gT : (getItem (t0 :: t1 :: rest) ((t0 :: t1 :: rest).length - 1) : Except PyErr K) = .ok T := by
    rw [getItem, hgT]; rfl
  simp only [adaptiveOdeint, List.drop_succ_cons, List.drop_zero]
  rw [g0, gT]
  simp only [bind, Except.bind]
  rw [hloop fuel _ (adaptiveInit_inv k1 x hdt hsort hT)]

end Torchdyn
